import Verif.Io.RingSpec
import Mathlib.Data.List.Perm.Basic
import Mathlib.Tactic.ByContra
/-
Lemmas about the ring.
-/
namespace Verif.Io

variable {B : Type}

theorem pushAll_eq (r : Ring B) (reqs : List Req) (h : r.sq.length + reqs.length ≤ maxIo) :
    pushAll r reqs = ({ r with sq := r.sq ++ reqs }, true) := by
  induction reqs generalizing r with
  | nil => simp [pushAll]
  | cons q qs ih =>
    simp only [List.length_cons] at h
    unfold pushAll
    rw [if_pos (by omega), ih _ (by simp; omega)]
    simp

theorem flush_none {cs : List Int} (h : (flush cs).1 = none) : (∀ c ∈ cs, 0 ≤ c) ∧ (flush cs).2 = [] := by
  induction cs with
  | nil => exact ⟨by simp, rfl⟩
  | cons c cs ih =>
    unfold flush at h ⊢
    by_cases hc : c < 0
    · rw [if_pos hc] at h; cases h
    · rw [if_neg hc] at h ⊢
      obtain ⟨h1, h2⟩ := ih h
      refine ⟨?_, h2⟩
      intro d hd
      rcases List.mem_cons.1 hd with rfl | hd
      · omega
      · exact h1 d hd

theorem flush_nonneg {cs : List Int} (h : ∀ c ∈ cs, 0 ≤ c) : flush cs = (none, []) := by
  induction cs with
  | nil => rfl
  | cons c cs ih =>
    unfold flush
    rw [if_neg (by have := h c (by simp); omega)]
    exact ih fun d hd => h d (by simp [hd])

theorem flush_some {cs : List Int} {c : Int} (h : (flush cs).1 = some c) : c < 0 ∧ c ∈ cs := by
  induction cs with
  | nil => cases h
  | cons d cs ih =>
    unfold flush at h
    by_cases hd : d < 0
    · rw [if_pos hd] at h
      cases h
      exact ⟨hd, by simp⟩
    · rw [if_neg hd] at h
      exact ⟨(ih h).1, by simp [(ih h).2]⟩

theorem upd_same (f : Nat → List B) (i : Nat) (x : List B) : upd f i x i = x := by simp [upd]

theorem upd_other (f : Nat → List B) {i j : Nat} (x : List B) (h : j ≠ i) : upd f i x j = f j := by simp [upd, h]

/-- What holds while the kernel works at a batch. -/
structure Mid (file : List B) (env : Env) (mem : Nat → List B) (reqs : List Req) (done : List (Req × Int)) (r : Ring B) :
    Prop where
  sq : r.sq = []
  perm : (done.map Prod.fst ++ r.flight).Perm reqs
  cq : r.cq = done.map Prod.snd
  can : ∀ d ∈ done, env.can d.1 d.2
  wait : ∀ q ∈ r.flight, r.mem q.buf = mem q.buf
  got : ∀ d ∈ done, 0 ≤ d.2 →
    d.2.toNat ≤ d.1.len ∧ d.2.toNat ≤ file.length - d.1.off ∧
    r.mem d.1.buf = (file.drop d.1.off).take d.2.toNat ++ (mem d.1.buf).drop d.2.toNat
  other : ∀ b, b ∉ reqs.map Req.buf → r.mem b = mem b

theorem mid_start (file : List B) (env : Env) (r : Ring B) (reqs : List Req) :
    Mid file env r.mem reqs [] ⟨r.mem, [], reqs, []⟩ :=
  ⟨rfl, by simp, rfl, by simp, fun _ _ => rfl, by simp, fun _ _ => rfl⟩

theorem mid_set {file : List B} {env : Env} {mem : Nat → List B} {reqs : List Req} {done : List (Req × Int)} {r : Ring B}
    (h : Mid file env mem reqs done r) (hn : (reqs.map Req.buf).Nodup) {pre post : List Req} {q : Req}
    (hf : r.flight = pre ++ q :: post) (c : Int) (data : List B) (hcan : env.can q c)
    (hgot : 0 ≤ c → c.toNat ≤ q.len ∧ c.toNat ≤ file.length - q.off ∧
      data = (file.drop q.off).take c.toNat ++ (mem q.buf).drop c.toNat) :
    Mid file env mem reqs (done ++ [(q, c)]) ⟨upd r.mem q.buf data, r.sq, pre ++ post, r.cq ++ [c]⟩ := by
  have hp := h.perm
  rw [hf] at hp
  have hnd : ((done.map Prod.fst ++ (pre ++ q :: post)).map Req.buf).Nodup := (hp.map Req.buf).nodup_iff.2 hn
  have hp2 : (q :: (done.map Prod.fst ++ (pre ++ post))).Perm (done.map Prod.fst ++ (pre ++ q :: post)) := by
    rw [← List.append_assoc, ← List.append_assoc]
    exact List.perm_middle.symm
  have hnd2 := (hp2.map Req.buf).nodup_iff.2 hnd
  rw [List.map_cons, List.nodup_cons] at hnd2
  have hne : ∀ p ∈ done.map Prod.fst ++ (pre ++ post), p.buf ≠ q.buf := by
    intro p hp' he
    exact hnd2.1 (he ▸ List.mem_map_of_mem hp')
  refine ⟨h.sq, ?_, ?_, ?_, ?_, ?_, ?_⟩
  · refine List.Perm.trans ?_ hp
    simp only [List.map_append, List.map_cons, List.map_nil, List.append_assoc]
    refine List.Perm.append_left _ ?_
    show (q :: (pre ++ post)).Perm (pre ++ q :: post)
    exact List.perm_middle.symm
  · simp [h.cq]
  · intro d hd
    rcases List.mem_append.1 hd with hd | hd
    · exact h.can d hd
    · rw [List.mem_singleton.1 hd]; exact hcan
  · intro p hp'
    show upd r.mem q.buf data p.buf = mem p.buf
    rw [upd_other _ _ (hne p (List.mem_append_right _ hp'))]
    refine h.wait p ?_
    rw [hf]
    rcases List.mem_append.1 hp' with h1 | h1 <;> simp [h1]
  · intro d hd h0
    show _ ∧ _ ∧ upd r.mem q.buf data d.1.buf = _
    rcases List.mem_append.1 hd with hd | hd
    · rw [upd_other _ _ (hne d.1 (List.mem_append_left _ (List.mem_map_of_mem hd)))]
      exact h.got d hd h0
    · rw [List.mem_singleton.1 hd] at h0 ⊢
      rw [upd_same]
      exact hgot h0
  · intro b hb
    show upd r.mem q.buf data b = mem b
    have : b ≠ q.buf := by
      rintro rfl
      exact hb (List.mem_map_of_mem (hp.subset (by simp)))
    rw [upd_other _ _ this]
    exact h.other b hb

theorem mid_step {file : List B} {env : Env} {mem : Nat → List B} {reqs : List Req} {done : List (Req × Int)}
    {r s : Ring B} (h : Mid file env mem reqs done r) (hn : (reqs.map Req.buf).Nodup) (hk : Kernel file env r s) :
    ∃ done', Mid file env mem reqs done' s := by
  cases hk with
  | read pre q post n hf h1 h2 h3 =>
    refine ⟨_, mid_set h hn hf n _ h3 fun _ => ?_⟩
    refine ⟨by simpa using h1, by simpa using h2, ?_⟩
    rw [h.wait q (by rw [hf]; simp)]
    simp
  | fail pre q post e data hf h1 h2 h3 =>
    exact ⟨_, mid_set h hn hf _ _ h3 fun h0 => by omega⟩

theorem mid_steps {file : List B} {env : Env} {mem : Nat → List B} {reqs : List Req} {r s : Ring B}
    (hs : Steps file env r s) (hn : (reqs.map Req.buf).Nodup) (h : ∃ done, Mid file env mem reqs done r) :
    ∃ done, Mid file env mem reqs done s := by
  induction hs with
  | nil r => exact h
  | cons hk _ ih =>
    obtain ⟨d, h⟩ := h
    exact ih (mid_step h hn hk)

/-- What a request found: `n` bytes of the file. -/
def Found (file : List B) (env : Env) (mem mem' : Nat → List B) (q : Req) : Prop :=
  ∃ n : Nat, env.can q n ∧ n ≤ q.len ∧ n ≤ file.length - q.off ∧
    mem' q.buf = (file.drop q.off).take n ++ (mem q.buf).drop n

/-- A batch that starts with an idle ring, without signals. -/
theorem batch_idle {file : List B} {env : Env} {r r' : Ring B} {reqs : List Req} {a : Option Err} (hi : Idle r)
    (hearly : env.early = false) (hn : (reqs.map Req.buf).Nodup) (hlen : reqs.length ≤ maxIo)
    (hb : Batch file env r reqs r' a) :
    a ≠ some .full ∧ (a = some .enter → env.refuse = true) ∧ (∀ b, b ∉ reqs.map Req.buf → r'.mem b = r.mem b) ∧
    (a = none → Idle r' ∧ ∀ q ∈ reqs, Found file env r.mem r'.mem q) ∧
    ∀ c, a = some (.os c) → c < 0 ∧ ∃ q ∈ reqs, env.can q c := by
  obtain ⟨i1, i2, i3⟩ := hi
  have hpush := pushAll_eq r reqs (by simp [i1]; exact hlen)
  rw [i1] at hpush
  cases hb with
  | full h => rw [hpush] at h; cases h
  | refused h0 h =>
    rw [hpush] at h
    cases h
    exact ⟨by simp, fun _ => h0, fun _ _ => rfl, by simp, by simp⟩
  | @done r1 r2 h hs hw =>
    rw [hpush] at h
    cases h
    have hsub : submit ({ r with sq := [] ++ reqs } : Ring B) = ⟨r.mem, [], reqs, []⟩ := by
      simp [submit, i2, i3]
    rw [hsub] at hs
    obtain ⟨done, hm⟩ := mid_steps hs hn ⟨[], mid_start file env r reqs⟩
    refine ⟨by cases (flush r2.cq).1 <;> simp, by cases (flush r2.cq).1 <;> simp, hm.other, ?_, ?_⟩
    · intro ha
      have hfl : (flush r2.cq).1 = none := by
        cases hfl : (flush r2.cq).1 with
        | none => rfl
        | some c => rw [hfl] at ha; cases ha
      obtain ⟨h0, hnil⟩ := flush_none hfl
      have hfull : reqs.length ≤ r2.cq.length := by
        rcases hw with h | h
        · exact h
        · rw [hearly] at h; cases h
      have hlen' := hm.perm.length_eq
      rw [hm.cq] at hfull
      simp only [List.length_append, List.length_map] at hlen' hfull
      have hfl0 : r2.flight = [] := List.length_eq_zero_iff.1 (by omega)
      refine ⟨⟨hm.sq, hfl0, hnil⟩, ?_⟩
      intro q hq
      have hq' := hm.perm.symm.subset hq
      rw [hfl0, List.append_nil] at hq'
      obtain ⟨d, hd, rfl⟩ := List.mem_map.1 hq'
      have hd0 : 0 ≤ d.2 := h0 d.2 (by rw [hm.cq]; exact List.mem_map_of_mem hd)
      obtain ⟨g1, g2, g3⟩ := hm.got d hd hd0
      refine ⟨d.2.toNat, ?_, g1, g2, g3⟩
      rw [Int.toNat_of_nonneg hd0]
      exact hm.can d hd
    · intro c ha
      obtain ⟨c', hfl, hc'⟩ : ∃ c', (flush r2.cq).1 = some c' ∧ Err.os c' = .os c := by
        cases hfl : (flush r2.cq).1 with
        | none => rw [hfl] at ha; cases ha
        | some c' => rw [hfl] at ha; exact ⟨c', rfl, by simpa using ha⟩
      cases hc'
      obtain ⟨h1, h2⟩ := flush_some hfl
      refine ⟨h1, ?_⟩
      rw [hm.cq] at h2
      obtain ⟨d, hd, rfl⟩ := List.mem_map.1 h2
      exact ⟨d.1, hm.perm.subset (List.mem_append_left _ (List.mem_map_of_mem hd)), hm.can d hd⟩

theorem found_mem {file : List B} {env : Env} {m1 m2 m3 m4 : Nat → List B} {q : Req} (h : Found file env m2 m3 q)
    (h1 : m2 q.buf = m1 q.buf) (h2 : m4 q.buf = m3 q.buf) : Found file env m1 m4 q := by
  obtain ⟨n, a, b, c, d⟩ := h
  exact ⟨n, a, b, c, by rw [h2, d, h1]⟩

theorem read_idle {file : List B} {env : Env} {r r' : Ring B} {bs : List (List Req)} {a : Option Err}
    (hr : Read file env r bs r' a) (hi : Idle r) (hearly : env.early = false) (hn : (bs.flatten.map Req.buf).Nodup)
    (hlen : ∀ b ∈ bs, b.length ≤ maxIo) :
    a ≠ some .full ∧ (a = some .enter → env.refuse = true) ∧ (∀ b, b ∉ bs.flatten.map Req.buf → r'.mem b = r.mem b) ∧
    (a = none → Idle r' ∧ ∀ q ∈ bs.flatten, Found file env r.mem r'.mem q) ∧
    ∀ c, a = some (.os c) → c < 0 ∧ ∃ q ∈ bs.flatten, env.can q c := by
  induction hr with
  | nil r => exact ⟨by simp, by simp, fun _ _ => rfl, fun _ => ⟨hi, by simp⟩, by simp⟩
  | @ok r b r1 bs r2 a hb hr ih =>
    rw [List.flatten_cons, List.map_append, List.nodup_append] at hn
    obtain ⟨n1, n2, n3⟩ := hn
    obtain ⟨_, _, b3, b4, _⟩ := batch_idle hi hearly n1 (hlen b (by simp)) hb
    obtain ⟨i1, f1⟩ := b4 rfl
    obtain ⟨c1, c2, c3, c4, c5⟩ := ih i1 n2 (fun b hb => hlen b (by simp [hb]))
    refine ⟨c1, c2, ?_, ?_, ?_⟩
    · intro x hx
      rw [List.flatten_cons, List.map_append, List.mem_append, not_or] at hx
      rw [c3 x hx.2, b3 x hx.1]
    · intro ha
      obtain ⟨i2, f2⟩ := c4 ha
      refine ⟨i2, ?_⟩
      intro q hq
      rw [List.flatten_cons] at hq
      rcases List.mem_append.1 hq with hq | hq
      · refine found_mem (f1 q hq) rfl (c3 _ fun hmem => ?_)
        exact n3 _ (List.mem_map_of_mem hq) _ hmem rfl
      · refine found_mem (f2 q hq) (b3 _ fun hmem => ?_) rfl
        exact n3 _ hmem _ (List.mem_map_of_mem hq) rfl
    · intro c hc
      obtain ⟨h1, q, hq, h2⟩ := c5 c hc
      exact ⟨h1, q, by simp only [List.flatten_cons]; exact List.mem_append_right _ hq, h2⟩
  | @err r b r1 bs e hb =>
    rw [List.flatten_cons, List.map_append, List.nodup_append] at hn
    obtain ⟨b1, b2, b3, _, b5⟩ := batch_idle hi hearly hn.1 (hlen b (by simp)) hb
    refine ⟨b1, b2, ?_, by simp, ?_⟩
    · intro x hx
      rw [List.flatten_cons, List.map_append, List.mem_append, not_or] at hx
      exact b3 x hx.1
    · intro c hc
      obtain ⟨h1, q, hq, h2⟩ := b5 c hc
      exact ⟨h1, q, by simp only [List.flatten_cons]; exact List.mem_append_left _ hq, h2⟩

theorem take_range {A : Type} (xs : List A) (m : Nat) (hm : 0 < m) (n : Nat) :
    ((List.range n).map fun b => (xs.drop (m * b)).take (min (xs.length - m * b) m)).flatten = xs.take (m * n) := by
  induction n with
  | zero => simp
  | succ n ih =>
    rw [List.range_succ, List.map_append, List.flatten_append, ih]
    simp only [List.map_cons, List.map_nil, List.flatten_cons, List.flatten_nil, List.append_nil]
    rw [Nat.mul_succ, List.take_add]
    congr 1
    rw [List.take_eq_take_iff]
    simp [Nat.min_comm]

theorem batches_flatten (reqs : List Req) : (batches reqs).flatten = reqs := by
  unfold batches
  rw [take_range reqs maxIo (by decide)]
  apply List.take_of_length_le
  have : maxIo = 128 := rfl
  rw [this]
  omega

theorem batches_len (reqs : List Req) : ∀ b ∈ batches reqs, b.length ≤ maxIo := by
  intro b hb
  unfold batches at hb
  obtain ⟨i, _, rfl⟩ := List.mem_map.1 hb
  rw [List.length_take]
  omega

end Verif.Io
