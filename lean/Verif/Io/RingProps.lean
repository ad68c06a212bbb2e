import Verif.Io.RingLemmas
/-
C110: reading an index from disk fills the buffers with the bytes of the file.
-/
namespace Verif.Io

variable {B : Type}

/-- If reads are neither short nor fail and no signal arrives: for any number of requests and in whatever order the
kernel completes them, a call succeeds, each buffer holds the bytes of the file it was asked for, no other buffer is
touched, and the ring is ready for the next call. -/
theorem C110_read_partial (file : List B) (r r' : Ring B) (reqs : List Req) (a : Option Err) (hi : Idle r)
    (hfit : Fit r reqs) (h : Call file clean r reqs r' a) :
    a = none ∧ Idle r' ∧ (∀ q ∈ reqs, r'.mem q.buf = wanted file q) ∧
    ∀ b, b ∉ reqs.map Req.buf → r'.mem b = r.mem b := by
  have hf := batches_flatten reqs
  obtain ⟨h1, h2, h3, h4, h5⟩ := read_idle h hi rfl (by rw [hf]; exact hfit.1) (batches_len reqs)
  rw [hf] at h3 h4 h5
  have ha : a = none := by
    cases a with
    | none => rfl
    | some e =>
      cases e with
      | full => exact absurd rfl h1
      | enter => cases h2 rfl
      | os c =>
        obtain ⟨h6, q, _, h7⟩ := h5 c rfl
        have h7' : c = q.len := h7
        omega
  obtain ⟨h6, h7⟩ := h4 ha
  refine ⟨ha, h6, ?_, h3⟩
  intro q hq
  obtain ⟨n, g1, _, _, g4⟩ := h7 q hq
  have g1' : (n : Int) = q.len := g1
  have hn : n = q.len := by omega
  subst hn
  have hd : (r.mem q.buf).drop q.len = [] := List.drop_of_length_le (by rw [hfit.2 q hq]; omega)
  rw [g4, hd, List.append_nil]
  rfl

/-- Such a call can always go on to its end. -/
theorem C110_ends (file : List B) (r : Ring B) (reqs : List Req) (hi : Idle r)
    (hin : ∀ q ∈ reqs, q.len ≤ file.length - q.off) : ∃ r', Call file clean r reqs r' none := by
  have key : ∀ (qs : List Req) (mem : Nat → List B) (cq : List Int), (∀ q ∈ qs, q.len ≤ file.length - q.off) →
      ∃ mem', Steps file clean ⟨mem, [], qs, cq⟩ ⟨mem', [], [], cq ++ qs.map fun q => (q.len : Int)⟩ := by
    intro qs
    induction qs with
    | nil => intro mem cq _; exact ⟨mem, by simpa using Steps.nil _⟩
    | cons q qs ih =>
      intro mem cq hq
      obtain ⟨mem', hs⟩ := ih (upd mem q.buf ((file.drop q.off).take q.len ++ (mem q.buf).drop q.len))
        (cq ++ [(q.len : Int)]) (fun p hp => hq p (by simp [hp]))
      refine ⟨mem', .cons (Kernel.read (env := clean) ⟨mem, [], q :: qs, cq⟩ [] q qs q.len rfl (Nat.le_refl _)
        (hq q (by simp)) rfl) ?_⟩
      simpa using hs
  have key2 : ∀ (bs : List (List Req)) (r : Ring B), Idle r → (∀ b ∈ bs, b.length ≤ maxIo) →
      (∀ b ∈ bs, ∀ q ∈ b, q.len ≤ file.length - q.off) → ∃ r', Read file clean r bs r' none := by
    intro bs
    induction bs with
    | nil => intro r _ _ _; exact ⟨r, .nil r⟩
    | cons b bs ih =>
      intro r hi hl hq
      obtain ⟨i1, i2, i3⟩ := hi
      obtain ⟨mem', hs⟩ := key b r.mem [] (hq b (by simp))
      obtain ⟨r', hr⟩ := ih ⟨mem', [], [], []⟩ ⟨rfl, rfl, rfl⟩ (fun c hc => hl c (by simp [hc]))
        (fun c hc => hq c (by simp [hc]))
      have hp := pushAll_eq r b (by rw [i1]; simpa using hl b (by simp))
      rw [i1] at hp
      have hsub : submit ({ r with sq := [] ++ b } : Ring B) = ⟨r.mem, [], b, []⟩ := by simp [submit, i2, i3]
      rw [← hsub] at hs
      have hb := Batch.done (env := clean) hp hs (.inl (by simp))
      have hfl : flush ([] ++ b.map fun q => (q.len : Int)) = (none, []) := by
        apply flush_nonneg
        intro c hc
        simp only [List.nil_append, List.mem_map] at hc
        obtain ⟨q, _, rfl⟩ := hc
        omega
      simp only [hfl] at hb
      exact ⟨r', .ok hb hr⟩
  refine key2 _ r hi (batches_len reqs) ?_
  intro b hb q hq
  refine hin q ?_
  rw [← batches_flatten reqs]
  exact List.mem_flatten.2 ⟨b, hb, hq⟩

/-- Errors of the kernel are noticed: if reads are not short, and no signal arrives, a call that succeeds filled all
buffers, whatever failed before it or in other requests. -/
theorem C110_errors_noticed (file : List B) (env : Env) (r r' : Ring B) (reqs : List Req) (hi : Idle r)
    (hfit : Fit r reqs) (hcan : ∀ q c, env.can q c → c < 0 ∨ c = q.len) (hearly : env.early = false)
    (h : Call file env r reqs r' none) : Idle r' ∧ ∀ q ∈ reqs, r'.mem q.buf = wanted file q := by
  have hf := batches_flatten reqs
  obtain ⟨_, _, _, h4, _⟩ := read_idle h hi hearly (by rw [hf]; exact hfit.1) (batches_len reqs)
  rw [hf] at h4
  obtain ⟨h6, h7⟩ := h4 rfl
  refine ⟨h6, ?_⟩
  intro q hq
  obtain ⟨n, g1, _, _, g4⟩ := h7 q hq
  have hn : n = q.len := by
    rcases hcan q n g1 with h | h <;> omega
  subst hn
  have hd : (r.mem q.buf).drop q.len = [] := List.drop_of_length_le (by rw [hfit.2 q hq]; omega)
  rw [g4, hd, List.append_nil]
  rfl

/-- The submission queue is never full, and other buffers are never touched, even if requests fail. -/
theorem C110_contained (file : List B) (env : Env) (r r' : Ring B) (reqs : List Req) (a : Option Err) (hi : Idle r)
    (hfit : Fit r reqs) (hearly : env.early = false) (h : Call file env r reqs r' a) :
    a ≠ some .full ∧ ∀ b, b ∉ reqs.map Req.buf → r'.mem b = r.mem b := by
  have hf := batches_flatten reqs
  obtain ⟨h1, _, h3, _, _⟩ := read_idle h hi hearly (by rw [hf]; exact hfit.1) (batches_len reqs)
  rw [hf] at h3
  exact ⟨h1, h3⟩

/-! ### Disagreements -/

/-- Refutation for short reads: at the end of the file a call succeeds although bytes are missing: every call, with
a kernel that reads what is there. A request behind the end leaves its buffer as it was. -/
theorem C110_short_refuted (file : List B) (r r' : Ring B) (reqs : List Req) (a : Option Err) (hi : Idle r)
    (hfit : Fit r reqs) (h : Call file (endOfFile file) r reqs r' a) :
    a = none ∧ ∀ q ∈ reqs, file.length ≤ q.off → r'.mem q.buf = r.mem q.buf := by
  have hf := batches_flatten reqs
  obtain ⟨h1, h2, h3, h4, h5⟩ := read_idle h hi rfl (by rw [hf]; exact hfit.1) (batches_len reqs)
  rw [hf] at h3 h4 h5
  have ha : a = none := by
    cases a with
    | none => rfl
    | some e =>
      cases e with
      | full => exact absurd rfl h1
      | enter => cases h2 rfl
      | os c =>
        obtain ⟨h6, q, _, h7⟩ := h5 c rfl
        have h7' : c = (min q.len (file.length - q.off) : Nat) := h7
        omega
  refine ⟨ha, ?_⟩
  intro q hq hoff
  obtain ⟨n, _, _, g3, g4⟩ := (h4 ha).2 q hq
  have hn : n = 0 := by omega
  subst hn
  rw [g4]
  simp

theorem batches_one {reqs : List Req} (h1 : reqs ≠ []) (h2 : reqs.length ≤ maxIo) : batches reqs = [reqs] := by
  have hl : 0 < reqs.length := List.length_pos_iff.2 h1
  have hm : maxIo = 128 := rfl
  unfold batches
  rw [hm] at h2 ⊢
  rw [show (reqs.length + (128 - 1)) / 128 = 1 by omega]
  simp only [List.range_one, List.map_cons, List.map_nil, Nat.mul_zero, List.drop_zero]
  rw [List.take_of_length_le (by omega)]

/-- Results that were left over count for the next call: it succeeds without a byte being read, and the kernel works
at its requests after it has returned. -/
theorem C110_left_over (file : List B) (env : Env) (r : Ring B) (reqs : List Req) (hne : reqs ≠ [])
    (hlen : reqs.length ≤ maxIo) (hsq : r.sq = []) (hcq : ∀ c ∈ r.cq, 0 ≤ c) (hleft : reqs.length ≤ r.cq.length) :
    Call file env r reqs ⟨r.mem, [], r.flight ++ reqs, []⟩ none := by
  unfold Call
  rw [batches_one hne hlen]
  have hp := pushAll_eq r reqs (by rw [hsq]; simpa using hlen)
  rw [hsq] at hp
  have hsub : submit ({ r with sq := [] ++ reqs } : Ring B) = ⟨r.mem, [], r.flight ++ reqs, r.cq⟩ := by
    simp [submit]
  have hb := Batch.done (env := env) hp (file := file) (r2 := ⟨r.mem, [], r.flight ++ reqs, r.cq⟩)
    (by rw [hsub]; exact Steps.nil _) (.inl hleft)
  simp only [flush_nonneg hcq] at hb
  exact .ok hb (.nil _)

/-- Refutation for calls after a failed call: for every file and all requests: if the first of two requests of a
call fails, the call reports it, but leaves the result of the second one behind.  The next call, with a kernel that
makes no errors, may then succeed while its buffer still holds what it held, and the kernel writes into that buffer
after the call has returned. -/
theorem C110_after_error_refuted (file : List B) (r : Ring B) (q0 q1 q2 : Req) (e : Nat) (hi : Idle r) (he : 0 < e)
    (h1 : q1.len ≤ file.length - q1.off) (h2 : q2.len ≤ file.length - q2.off) (h02 : q2.buf ≠ q0.buf)
    (h12 : q2.buf ≠ q1.buf) (hl2 : (r.mem q2.buf).length = q2.len) :
    ∃ r1 r2 r3 : Ring B, Call file noSignal r [q0, q1] r1 (some (.os (-(e : Int)))) ∧
      Call file clean r1 [q2] r2 none ∧ r2.mem q2.buf = r.mem q2.buf ∧
      Kernel file clean r2 r3 ∧ r3.mem q2.buf = wanted file q2 := by
  obtain ⟨i1, i2, i3⟩ := hi
  let m1 := upd r.mem q0.buf (r.mem q0.buf)
  let m2 := upd m1 q1.buf ((file.drop q1.off).take q1.len ++ (m1 q1.buf).drop q1.len)
  let m3 := upd m2 q2.buf ((file.drop q2.off).take q2.len ++ (m2 q2.buf).drop q2.len)
  have hm2 : m2 q2.buf = r.mem q2.buf := by
    show upd m1 q1.buf _ q2.buf = _
    rw [upd_other _ _ h12]
    exact upd_other _ _ h02
  refine ⟨⟨m2, [], [], [(q1.len : Int)]⟩, ⟨m2, [], [q2], []⟩, ⟨m3, [], [], [(q2.len : Int)]⟩, ?_, ?_, hm2, ?_, ?_⟩
  · unfold Call
    rw [batches_one (by simp) (by simp [maxIo])]
    have hp := pushAll_eq r [q0, q1] (by rw [i1]; simp [maxIo])
    rw [i1] at hp
    have hsub : submit ({ r with sq := [] ++ [q0, q1] } : Ring B) = ⟨r.mem, [], [q0, q1], []⟩ := by simp [submit, i2, i3]
    have hs : Steps file noSignal (⟨r.mem, [], [q0, q1], []⟩ : Ring B) ⟨m2, [], [], [-(e : Int), (q1.len : Int)]⟩ :=
      .cons (Kernel.fail (env := noSignal) ⟨r.mem, [], [q0, q1], []⟩ [] q0 [q1] e (r.mem q0.buf) rfl he rfl trivial)
        (.cons (Kernel.read (env := noSignal) ⟨m1, [], [q1], [-(e : Int)]⟩ [] q1 [] q1.len rfl (Nat.le_refl _) h1 trivial)
          (.nil _))
    have hb := Batch.done (env := noSignal) hp (hsub ▸ hs) (.inl (by simp))
    have hfl : flush [-(e : Int), (q1.len : Int)] = (some (-(e : Int)), [(q1.len : Int)]) := by
      unfold flush
      rw [if_pos (by omega)]
    simp only [hfl] at hb
    exact .err hb
  · exact C110_left_over file clean ⟨m2, [], [], [(q1.len : Int)]⟩ [q2] (by simp) (by simp [maxIo]) rfl
      (by intro c hc; rw [List.mem_singleton.1 hc]; omega) (by simp)
  · exact Kernel.read (env := clean) ⟨m2, [], [q2], []⟩ [] q2 [] q2.len rfl (Nat.le_refl _) h2 rfl
  · show upd m2 q2.buf _ q2.buf = _
    have hd : (r.mem q2.buf).drop q2.len = [] := List.drop_of_length_le (by rw [hl2]; omega)
    rw [upd_same, hm2, hd, List.append_nil]
    rfl

/-- Refutation for signals: if a signal may end waiting, a call may succeed without a byte being read. -/
theorem C110_signal_refuted (file : List B) (env : Env) (r : Ring B) (reqs : List Req) (hi : Idle r) (hne : reqs ≠ [])
    (hlen : reqs.length ≤ maxIo) (hearly : env.early = true) : Call file env r reqs ⟨r.mem, [], reqs, []⟩ none := by
  obtain ⟨i1, i2, i3⟩ := hi
  unfold Call
  rw [batches_one hne hlen]
  have hp := pushAll_eq r reqs (by rw [i1]; simpa using hlen)
  rw [i1] at hp
  have hsub : submit ({ r with sq := [] ++ reqs } : Ring B) = ⟨r.mem, [], reqs, []⟩ := by simp [submit, i2, i3]
  have hb := Batch.done (env := env) hp (file := file) (r2 := ⟨r.mem, [], reqs, []⟩)
    (by rw [hsub]; exact Steps.nil _) (.inr hearly)
  exact .ok hb (.nil _)

/-- Refutation for error codes: codes of the system are positive, the code a failed call carries never is. -/
theorem C110_error_code_refuted (file : List B) (env : Env) (r r' : Ring B) (reqs : List Req) (c : Int)
    (h : Call file env r reqs r' (some (.os c))) : c < 0 := by
  unfold Call at h
  generalize batches reqs = bs at h
  generalize ha : (some (Err.os c)) = a at h
  induction h with
  | nil r => cases ha
  | ok _ _ ih => exact ih ha
  | err hb =>
    cases ha
    generalize hx : some (Err.os c) = x at hb
    cases hb with
    | full _ => cases hx
    | refused _ _ => cases hx
    | @done r1 r2 _ _ _ =>
      cases hfl : (flush r2.cq).1 with
      | none => rw [hfl] at hx; cases hx
      | some c' =>
        rw [hfl] at hx
        cases hx
        exact (flush_some hfl).1

/-! ### Reading from memory, and alignment -/

/-- The reader for data in memory fills all buffers, if all requests lie in the file; otherwise it panics. -/
theorem C110_storage (data : List B) (mem : Nat → List B) (reqs : List Req) (hn : (reqs.map Req.buf).Nodup) :
    ((∀ q ∈ reqs, q.off + q.len ≤ data.length) → ∃ mem', storageRead data mem reqs = some mem' ∧
      (∀ q ∈ reqs, mem' q.buf = wanted data q) ∧ ∀ b, b ∉ reqs.map Req.buf → mem' b = mem b) ∧
    ((∃ q ∈ reqs, data.length < q.off + q.len) → storageRead data mem reqs = none) := by
  induction reqs generalizing mem with
  | nil => exact ⟨fun _ => ⟨mem, rfl, by simp, by simp⟩, by simp⟩
  | cons q qs ih =>
    rw [List.map_cons, List.nodup_cons] at hn
    constructor
    · intro hin
      obtain ⟨m, h1, h2, h3⟩ := (ih (upd mem q.buf ((data.drop q.off).take q.len)) hn.2).1
        (fun p hp => hin p (by simp [hp]))
      refine ⟨m, ?_, ?_, ?_⟩
      · unfold storageRead
        rw [if_pos (hin q (by simp))]
        exact h1
      · intro p hp
        rcases List.mem_cons.1 hp with rfl | hp
        · rw [h3 _ hn.1, upd_same]
          rfl
        · exact h2 p hp
      · intro b hb
        rw [List.map_cons, List.mem_cons, not_or] at hb
        rw [h3 b hb.2, upd_other _ _ hb.1]
    · rintro ⟨p, hp, hlt⟩
      unfold storageRead
      split
      · rename_i hq
        rcases List.mem_cons.1 hp with rfl | hp
        · omega
        · exact (ih _ hn.2).2 ⟨p, hp, hlt⟩
      · rfl

/-- The requests for sectors are accepted if the buffer and the size of a block are aligned. -/
theorem C110_aligned (align base block perNode cur : Nat) (sectors : List Nat) (hb : align ∣ base) (hk : align ∣ block) :
    ∀ x ∈ graphReqs base block perNode cur sectors, accepts align x.1 x.2.1 x.2.2 = true := by
  intro x hx
  unfold graphReqs at hx
  obtain ⟨⟨s, i⟩, _, rfl⟩ := List.mem_map.1 hx
  have h1 : (base + (cur + i) * (perNode * block)) % align = 0 :=
    Nat.mod_eq_zero_of_dvd (Nat.dvd_add hb (Nat.dvd_mul_left_of_dvd (Nat.dvd_mul_left_of_dvd hk _) _))
  have h2 : (perNode * block) % align = 0 := Nat.mod_eq_zero_of_dvd (Nat.dvd_mul_left_of_dvd hk _)
  have h3 : (s * block) % align = 0 := Nat.mod_eq_zero_of_dvd (Nat.dvd_mul_left_of_dvd hk _)
  simp [accepts, h1, h2, h3]

/-- With blocks of another size, which a file may announce, no request is accepted. -/
theorem C110_unaligned (align base block perNode cur : Nat) (sectors : List Nat) (hk : ¬ align ∣ perNode * block) :
    ∀ x ∈ graphReqs base block perNode cur sectors, accepts align x.1 x.2.1 x.2.2 = false := by
  intro x hx
  unfold graphReqs at hx
  obtain ⟨⟨s, i⟩, _, rfl⟩ := List.mem_map.1 hx
  have h2 : (perNode * block) % align ≠ 0 := fun h => hk (Nat.dvd_of_mod_eq_zero h)
  simp [accepts, h2]

/-- A request is accepted exactly if the address and the length of its buffer and its offset are multiples of the
alignment. -/
theorem C110_accepts (align addr len off : Nat) :
    accepts align addr len off = true ↔ align ∣ addr ∧ align ∣ len ∧ align ∣ off := by
  simp only [accepts, Bool.and_eq_true, beq_iff_eq, Nat.dvd_iff_mod_eq_zero, and_assoc]

/-- An idle ring. -/
def ring00 : Ring Nat := ⟨fun _ => [], [], [], []⟩

/-- The queue never holds more than it has room for, and a batch that does not fit is refused. -/
theorem C110_queue (r : Ring B) (reqs : List Req) (h : r.sq.length ≤ maxIo) :
    (pushAll r reqs).1.sq.length ≤ maxIo ∧
    ((pushAll r reqs).2 = true ↔ r.sq.length + reqs.length ≤ maxIo) := by
  induction reqs generalizing r with
  | nil => simpa [pushAll] using h
  | cons q qs ih =>
    unfold pushAll
    by_cases hl : r.sq.length < maxIo
    · rw [if_pos hl]
      have := ih { r with sq := r.sq ++ [q] } (by simpa using Nat.succ_le_of_lt hl)
      simp only [List.length_append, List.length_cons, List.length_nil] at this ⊢
      refine ⟨this.1, this.2.trans ?_⟩
      omega
    · rw [if_neg hl]
      refine ⟨h, ?_⟩
      simp only [List.length_cons, Bool.false_eq_true, false_iff]
      omega

/-! ### Concrete cases -/

example : (pushAll ring00 (List.replicate (maxIo + 1) ⟨0, 0, 1⟩)).2 = false := by
  have := (C110_queue ring00 (List.replicate (maxIo + 1) ⟨0, 0, 1⟩) (by simp [ring00])).2
  cases h : (pushAll ring00 (List.replicate (maxIo + 1) ⟨0, 0, 1⟩)).2 with
  | false => rfl
  | true => rw [h] at this; simp [ring00] at this; omega

/-- An idle ring with two buffers of two bytes. -/
def ring0 : Ring Nat := ⟨fun _ => [0, 0], [], [], []⟩

example : Idle ring0 ∧ Fit ring0 [⟨0, 2, 2⟩, ⟨1, 0, 2⟩] := ⟨⟨rfl, rfl, rfl⟩, by simp, by simp [ring0]⟩

example : ∃ r', Call [1, 2, 3, 4] clean ring0 [⟨0, 2, 2⟩, ⟨1, 0, 2⟩] r' none :=
  C110_ends _ _ _ ⟨rfl, rfl, rfl⟩ (by simp)

example : wanted [1, 2, 3, 4] ⟨0, 2, 2⟩ = [3, 4] := by decide

example : ∃ q c, noSignal.can q c ∧ c < 0 := ⟨⟨0, 0, 0⟩, -5, trivial, by decide⟩

example : accepts 512 1024 4096 8192 = true ∧ accepts 512 1024 1000 8192 = false := by decide

example : (graphReqs 1024 4096 1 2 [5, 7]) = [(9216, 4096, 20480), (13312, 4096, 28672)] := by decide

example : (storageRead [1, 2, 3, 4] (fun _ => [0, 0]) [⟨0, 2, 2⟩]).map (· 0) = some [3, 4] ∧
    (storageRead [1, 2, 3, 4] (fun _ => [0, 0]) [⟨0, 3, 2⟩]).isNone := by decide

end Verif.Io
