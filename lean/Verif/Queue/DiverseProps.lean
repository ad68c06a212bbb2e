import Verif.Queue.DiverseStep

/-! # C63: diversity-limited candidate lists -/

namespace Verif.Queue

variable {I A D : Type} [DecidableEq I] [DecidableEq A] [LinearOrder D]

theorem dl_pos (l k dk : Nat) (hk : 1 ≤ k) (hkl : k ≤ l) (hdk : 1 ≤ dk) : dk ≤ dk * l / k := by
  rw [Nat.le_div_iff_mul_le (by omega)]
  exact Nat.mul_le_mul_left _ hkl

theorem dpop_weak (l dl dk : Nat) (attr : I → Option A) (q : DQueue I A D) (h : DWeak l dl attr dk q) :
    ∃ r q', q.global.pop = some (r, q'.global) ∧ q.pop = some (r.map (fun x => (x.1.1, x.2)), q') ∧
      DWeak l dl attr dk q' ∧ q'.keys = q.keys ∧ q'.loc = q.loc ∧ q'.global.contents = q.global.contents ∧
      GoodPop q.global r q'.global := by
  obtain ⟨r, g, h1, h2⟩ := goodPop_of_inv q.global h.ginv
  have hinv : Inv g ∧ g.capacity = q.global.capacity ∧ g.auto = q.global.auto ∧ g.searchL = q.global.searchL := by
    rcases pop_core q.global h.ginv.toW with ⟨e, hc, hl, he, q', hp, a1, a2, a3, a4, a5⟩ | ⟨hm, hp⟩
    · rw [hp] at h1
      simp only [Option.some.injEq, Prod.mk.injEq] at h1
      rw [← h1.2]
      exact ⟨a1, a3, a4, a5⟩
    · rw [hp] at h1
      simp only [Option.some.injEq, Prod.mk.injEq] at h1
      rw [← h1.2]
      exact ⟨h.ginv, rfl, rfl, rfl⟩
  obtain ⟨a1, a2, a3, a4⟩ := hinv
  refine ⟨r, { q with global := g }, h1, by simp [DQueue.pop, h1], ?_, rfl, rfl, h2.same, h2⟩
  exact ⟨a1, by rw [← h.gcap]; exact a2, by rw [← h.gauto]; exact a3, by rw [← h.gL]; exact a4, h.linv, h.lcap, h.lauto,
    h.lL, h.qdl, h.qdk, h.qattr⟩

theorem dclear_weak (l dl dk : Nat) (hdl : 1 ≤ dl) (attr : I → Option A) (q : DQueue I A D)
    (h : DWeak l dl attr dk q) : DWeak l dl attr dk q.clear := by
  refine ⟨clear_inv _ h.ginv, h.gcap, h.gauto, h.gL, ?_, ?_, ?_, ?_, h.qdl, h.qdk, h.qattr⟩
  · intro a
    show BInv (Queue.new q.dl)
    rw [h.qdl]
    exact (new_inv dl hdl).toB
  · intro a; exact h.qdl
  · intro a; rfl
  · intro a; exact h.qdl

theorem empty_best (l dl : Nat) : DiverseBest l dl ([] : List ((I × A) × D)) [] :=
  ⟨by simp, by simp, by simp, by simp, by simp⟩

theorem drun_snoc (pad : D) (q : DQueue I A D) (ops : List (DOp I D)) (op : DOp I D) :
    drun pad q (ops ++ [op]) = (drun pad q ops).bind fun q => dstep pad q op := by
  unfold drun
  rw [List.foldlM_append]
  cases List.foldlM (dstep pad) q ops <;> simp

theorem dweak_run (pad : D) (l k dk : Nat) (hk : 1 ≤ k) (hkl : k ≤ l) (hdk : 1 ≤ dk) (attr : I → Option A)
    (ops : List (DOp I D)) :
    ∃ q, drun pad (DQueue.new l k dk attr) ops = some q ∧ DWeak l (dk * l / k) attr dk q := by
  have hd := dl_pos l k dk hk hkl hdk
  induction ops using List.reverseRecOn with
  | nil => exact ⟨_, rfl, new_weak l k dk (by omega) (by omega) attr⟩
  | append_singleton ops op ih =>
    obtain ⟨q, h1, h2⟩ := ih
    rw [drun_snoc, h1]
    simp only [Option.bind_some]
    cases op with
    | insert id d => exact insert_cases pad l _ dk (by omega) (by omega) attr q h2 id d
    | pop =>
      obtain ⟨r, q', -, h3, h4, -⟩ := dpop_weak l _ dk attr q h2
      exact ⟨q', by simp [dstep, h3], h4⟩
    | clear => exact ⟨_, rfl, dclear_weak l _ dk (by omega) attr q h2⟩

theorem offered_snoc (attr : I → Option A) (ops : List (DOp I D)) (op : DOp I D) :
    offered attr (ops ++ [op]) = (match op with
      | .insert id (some d) =>
        match attr id with | some a => offered attr ops ++ [((id, a), d)] | none => offered attr ops
      | .insert _ none => offered attr ops
      | .pop => offered attr ops
      | .clear => []) := by
  simp only [offered, List.foldl_append, List.foldl_cons, List.foldl_nil]
  cases op with
  | insert id d => cases d <;> rfl
  | pop => rfl
  | clear => rfl

theorem dstrong_run (pad : D) (l k dk : Nat) (hk : 1 ≤ k) (hkl : k ≤ l) (hdk : 1 ≤ dk) (attr : I → Option A)
    (ops : List (DOp I D)) (hd : ((offered attr ops).map (·.2)).Nodup) (q : DQueue I A D)
    (hq : drun pad (DQueue.new l k dk attr) ops = some q) : DStrong l (dk * l / k) (offered attr ops) q := by
  have hdl := dl_pos l k dk hk hkl hdk
  induction ops using List.reverseRecOn generalizing q with
  | nil =>
    simp only [drun, List.foldlM_nil, pure, Option.some.injEq] at hq
    subst hq
    refine ⟨empty_best _ _, ?_, ?_⟩
    · intro a; rfl
    · intro x hx; cases hx
  | append_singleton ops op ih =>
    obtain ⟨q0, h1, h2⟩ := dweak_run pad l k dk hk hkl hdk attr ops
    rw [drun_snoc, h1] at hq
    simp only [Option.bind_some] at hq
    rw [offered_snoc] at hd ⊢
    cases op with
    | clear =>
      simp only [dstep, Option.some.injEq] at hq
      subst hq
      refine ⟨empty_best _ _, ?_, ?_⟩
      · intro a; rfl
      · intro x hx; cases hx
    | pop =>
      have hs := ih hd q0 h1
      obtain ⟨r, q', h3, h4, h5, h6, h7, h8, -⟩ := dpop_weak l _ dk attr q0 h2
      simp only [dstep, h4, Option.map_some, Option.some.injEq] at hq
      subst hq
      exact ⟨by rw [h8]; exact hs.spec, fun a => by rw [h7, h8]; exact hs.locs a,
        fun x hx => by rw [h6]; exact hs.keys x (by rw [← h8]; exact hx)⟩
    | insert id d =>
      cases d with
      | none =>
        have hs := ih hd q0 h1
        simp only [dstep] at hq
        -- a NaN distance changes no contents
        unfold DQueue.insert at hq
        split at hq
        · obtain rfl := Option.some.inj hq; exact hs
        · rename_i a hat
          simp only [Queue.insert] at hq
          have hkk : ∀ b ∈ q0.keys, b ∈ (if a ∈ q0.keys then q0.keys else a :: q0.keys) := by
            intro b hb; split <;> simp [hb]
          have hsame : ∀ q' : DQueue I A D, q'.global = q0.global → (∀ b, q'.loc b = q0.loc b) →
              q'.keys = (if a ∈ q0.keys then q0.keys else a :: q0.keys) → DStrong l (dk * l / k) (offered attr ops) q' := by
            intro q' e1 e2 e3
            refine ⟨by rw [e1]; exact hs.spec, fun b => by rw [e2, e1]; exact hs.locs b, ?_⟩
            intro x hx
            rw [e3]; exact hkk _ (hs.keys x (by rw [← e1]; exact hx))
          generalize (if a ∈ q0.keys then q0.keys else a :: q0.keys) = ks at hq hsame
          cases hlf : (q0.loc a).isFull <;> cases hgf : q0.global.isFull <;>
            simp only [hlf, hgf, Bool.not_true, Bool.not_false, Bool.and_true, Bool.and_false, Bool.and_self,
              Bool.false_eq_true, if_true, if_false, Option.bind_eq_bind, Option.bind_eq_some_iff,
              Option.some.injEq] at hq
          · obtain ⟨_, rfl, _, rfl, rfl⟩ := hq
            refine hsame _ rfl ?_ rfl
            intro b; simp only [DQueue.setLoc]; split
            · rename_i hb; rw [hb]
            · rfl
          · obtain ⟨_, _, _, _, rfl⟩ := hq
            exact hsame _ rfl (fun b => rfl) rfl
          · obtain ⟨_, _, _, _, rfl⟩ := hq
            exact hsame _ rfl (fun b => rfl) rfl
          · obtain ⟨_, _, _, _, rfl⟩ := hq
            exact hsame _ rfl (fun b => rfl) rfl
      | some d =>
        simp only [dstep] at hq
        cases hat : attr id with
        | none =>
          simp only [hat] at hd ⊢
          have hs := ih hd q0 h1
          unfold DQueue.insert at hq
          rw [h2.qattr, hat] at hq
          obtain rfl := Option.some.inj hq
          exact hs
        | some a =>
          simp only [hat] at hd ⊢
          simp only [List.map_append, List.map_cons, List.map_nil] at hd
          rw [List.nodup_append] at hd
          have hs := ih hd.1 q0 h1
          refine insert_strong pad l _ dk (by omega) (by omega) attr q0 h2 _ hs id a d hat ?_ q hq
          intro x hx hxd
          exact hd.2.2 x.2 (List.mem_map_of_mem hx) d (by simp) hxd

/-- **C63**, always. With the parameters the search accepts (`1 ≤ k ≤ l`, `1 ≤ dk`), no history of insertions, pops and
clears panics, at most `l` candidates are stored, and each pop offers the best unexpanded stored candidate. Ties and NaN
distances are allowed here. -/
theorem C63_diverse_total (pad : D) (l k dk : Nat) (hk : 1 ≤ k) (hkl : k ≤ l) (hdk : 1 ≤ dk) (attr : I → Option A)
    (ops : List (DOp I D)) :
    ∃ q, drun pad (DQueue.new l k dk attr) ops = some q ∧ q.iter.length ≤ l ∧
      ∃ r q', q.global.pop = some (r, q'.global) ∧ q.pop = some (r.map (fun x => (x.1.1, x.2)), q') ∧
        GoodPop q.global r q'.global := by
  obtain ⟨q, h1, h2⟩ := dweak_run pad l k dk hk hkl hdk attr ops
  obtain ⟨r, q', h3, h4, -, -, -, -, h5⟩ := dpop_weak l _ dk attr q h2
  refine ⟨q, h1, ?_, r, q', h3, h4, h5⟩
  simp only [DQueue.iter, Queue.iter, List.length_map, List.length_take, h2.gL]
  omega

theorem iter_eq (l dl dk : Nat) (attr : I → Option A) (q : DQueue I A D) (h : DWeak l dl attr dk q) :
    q.iter = q.global.contents.map fun x => (x.1.1, x.2) := by
  have := h.ginv.size_le
  rw [h.gcap] at this
  unfold DQueue.iter Queue.iter Queue.contents
  rw [h.gL, Nat.min_eq_right this]
  simp [Queue.size]

/-- The specification has one answer. -/
theorem C63_best_unique (l dl : Nat) (cands g1 g2 : List ((I × A) × D)) (hd : (cands.map (·.2)).Nodup)
    (h1 : DiverseBest l dl cands g1) (h2 : DiverseBest l dl cands g2) : g1 = g2 := by
  -- the closest candidate on which the two differ cannot exist
  have hinj : ∀ x ∈ cands, ∀ y ∈ cands, x.2 = y.2 → x = y := fun x hx y hy => List.inj_on_of_nodup_map hd hx hy
  have key : ∀ (ga gb : List ((I × A) × D)), DiverseBest l dl cands ga → DiverseBest l dl cands gb →
      ∀ x, x ∈ ga → x ∉ gb → (∀ y ∈ cands, y.2 < x.2 → (y ∈ ga ↔ y ∈ gb)) → False := by
    intro ga gb ha hb x hxa hxb hcl
    have hxc := ha.sub x hxa
    have hna : ga.Nodup := ha.sorted.imp (fun hab => by rintro rfl; exact lt_irrefl _ hab)
    have hnb : gb.Nodup := hb.sorted.imp (fun hab => by rintro rfl; exact lt_irrefl _ hab)
    have hcount : ∀ p : ((I × A) × D) → Bool, gb.countP (fun y => p y && decide (y.2 < x.2)) + (if p x then 1 else 0) ≤ ga.countP p := by
      intro p
      have e1 : (gb.filter (fun y => p y && decide (y.2 < x.2))).Perm (ga.filter (fun y => p y && decide (y.2 < x.2))) := by
        rw [List.perm_ext_iff_of_nodup (hnb.sublist List.filter_sublist) (hna.sublist List.filter_sublist)]
        intro y
        simp only [List.mem_filter, Bool.and_eq_true, decide_eq_true_eq]
        constructor
        · rintro ⟨hy, hp, hlt⟩; exact ⟨(hcl y (hb.sub y hy) hlt).2 hy, hp, hlt⟩
        · rintro ⟨hy, hp, hlt⟩; exact ⟨(hcl y (ha.sub y hy) hlt).1 hy, hp, hlt⟩
      rw [List.countP_eq_length_filter, e1.length_eq, ← List.countP_eq_length_filter]
      rw [(perm_without ga ha.sorted x hxa).countP_eq p, (perm_without ga ha.sorted x hxa).countP_eq,
        List.countP_cons, List.countP_cons]
      have : List.countP (fun y => p y && decide (y.2 < x.2)) (without ga x) ≤ List.countP p (without ga x) := by
        apply List.countP_mono_left
        intro y _ hy; simp only [Bool.and_eq_true] at hy; exact hy.1
      simp only [lt_self_iff_false, decide_false, Bool.and_false, Bool.false_eq_true, if_false]
      omega
    rcases hb.best x hxc hxb with hbb | ⟨hbl, hbb⟩
    · have h3 := hcount (fun y => decide (y.1.2 = x.1.2))
      have h4 := ha.per x.1.2
      simp only [decide_true, if_true] at h3
      have h5 : gb.countP (fun y => decide (y.1.2 = x.1.2 ∧ y.2 < x.2)) =
          gb.countP (fun y => decide (y.1.2 = x.1.2) && decide (y.2 < x.2)) := by
        apply List.countP_congr; intro y _; simp
      omega
    · have h3 := hcount (fun _ => true)
      simp only [Bool.true_and, if_true] at h3
      have h4 : gb.countP (fun y => decide (y.2 < x.2)) = gb.length := by
        rw [List.countP_eq_length]; intro y hy; simpa using hbb y hy
      have h5 : ga.countP (fun _ => true) = ga.length := by simp
      have := ha.total
      omega
  -- strong induction on the rank of the differing candidate
  have main : ∀ n, ∀ x ∈ cands, cands.countP (fun y => decide (y.2 < x.2)) ≤ n → (x ∈ g1 ↔ x ∈ g2) := by
    intro n
    induction n with
    | zero =>
      intro x hx hn
      have hno : ∀ y ∈ cands, y.2 < x.2 → (y ∈ g1 ↔ y ∈ g2) := by
        intro y hy hlt
        have := List.countP_eq_zero.1 (Nat.le_zero.1 hn) y hy
        simp [hlt] at this
      by_contra hc
      by_cases hx1 : x ∈ g1
      · exact key g1 g2 h1 h2 x hx1 (fun h => hc ⟨fun _ => h, fun _ => hx1⟩) hno
      · have hx2 : x ∈ g2 := by by_contra hx2; exact hc ⟨fun h => absurd h hx1, fun h => absurd h hx2⟩
        exact key g2 g1 h2 h1 x hx2 hx1 (fun y hy hlt => (hno y hy hlt).symm)
    | succ n ih =>
      intro x hx hn
      have hno : ∀ y ∈ cands, y.2 < x.2 → (y ∈ g1 ↔ y ∈ g2) := by
        intro y hy hlt
        apply ih y hy
        have : cands.countP (fun z => decide (z.2 < y.2)) < cands.countP (fun z => decide (z.2 < x.2)) := by
          rw [List.countP_eq_length_filter, List.countP_eq_length_filter]
          have hsub : (cands.filter fun z => decide (z.2 < y.2)) =
              (cands.filter fun z => decide (z.2 < x.2)).filter fun z => decide (z.2 < y.2) := by
            rw [List.filter_filter]
            apply List.filter_congr
            intro z _
            by_cases hz : z.2 < y.2
            · simp [hz, lt_trans hz hlt]
            · simp [hz]
          rw [hsub, List.length_filter_lt_length_iff_exists]
          exact ⟨y, by simp [hy, hlt], by simp⟩
        omega
      by_contra hc
      by_cases hx1 : x ∈ g1
      · exact key g1 g2 h1 h2 x hx1 (fun h => hc ⟨fun _ => h, fun _ => hx1⟩) hno
      · have hx2 : x ∈ g2 := by by_contra hx2; exact hc ⟨fun h => absurd h hx1, fun h => absurd h hx2⟩
        exact key g2 g1 h2 h1 x hx2 hx1 (fun y hy hlt => (hno y hy hlt).symm)
  apply ext_strict g1 g2 h1.sorted h2.sorted
  intro x
  constructor
  · intro hx; exact (main _ x (h1.sub x hx) (Nat.le_refl _)).1 hx
  · intro hx; exact (main _ x (h2.sub x hx) (Nat.le_refl _)).2 hx

/-- **C63**, contents (partial: only when the offered distances are pairwise different; with ties it is false, see
`C63_tie_breaks_limit`). After any history, what is stored is the best selection of at most `l` of the candidates
offered since the last clear with at most `dk * l / k` of each attribute value. -/
theorem C63_diverse_best_partial (pad : D) (l k dk : Nat) (hk : 1 ≤ k) (hkl : k ≤ l) (hdk : 1 ≤ dk)
    (attr : I → Option A) (ops : List (DOp I D)) (hd : ((offered attr ops).map (·.2)).Nodup) :
    ∃ q g, drun pad (DQueue.new l k dk attr) ops = some q ∧ DiverseBest l (dk * l / k) (offered attr ops) g ∧
      q.iter = g.map fun x => (x.1.1, x.2) := by
  obtain ⟨q, h1, h2⟩ := dweak_run pad l k dk hk hkl hdk attr ops
  exact ⟨q, q.global.contents, h1, (dstrong_run pad l k dk hk hkl hdk attr ops hd q h1).spec, iter_eq l _ dk attr q h2⟩

theorem mem_drop_strict {X : Type} [DecidableEq X] (l : List (X × D)) (h : l.Pairwise ltd) (n : Nat) (x : X × D)
    (hx : x ∈ l) : x ∈ l.drop n ↔ n ≤ l.countP (fun y => decide (y.2 < x.2)) := by
  induction l generalizing n with
  | nil => cases hx
  | cons a t ih =>
    rw [List.pairwise_cons] at h
    rw [List.countP_cons]
    rcases List.mem_cons.1 hx with rfl | hxt
    · have h0 : t.countP (fun y => decide (y.2 < x.2)) = 0 := by
        rw [List.countP_eq_zero]
        intro y hy
        simp only [decide_eq_true_eq]
        exact lt_asymm (h.1 y hy)
      rw [h0]
      simp only [lt_self_iff_false, decide_false, Bool.false_eq_true, if_false]
      cases n with
      | zero => simp
      | succ n =>
        simp only [List.drop_succ_cons]
        constructor
        · intro hm
          exact absurd (h.1 x (List.mem_of_mem_drop hm)) (lt_irrefl _)
        · intro hm; omega
    · have hlt : a.2 < x.2 := h.1 x hxt
      simp only [hlt, decide_true, if_true]
      cases n with
      | zero => simp [hxt]
      | succ n =>
        rw [List.drop_succ_cons, ih h.2 n hxt]
        omega

theorem countP_proj (a : A) (g : List ((I × A) × D)) (d : D) :
    (proj a g).countP (fun y => decide (y.2 < d)) = g.countP (fun y => decide (y.1.2 = a ∧ y.2 < d)) := by
  unfold proj
  rw [List.countP_map, List.countP_filter]
  apply List.countP_congr
  intro y _
  simp [and_comm]

theorem postProcess_iter (l dl dk : Nat) (attr : I → Option A) (q : DQueue I A D) (h : DWeak l dl attr dk q)
    (cands : List ((I × A) × D)) (hs : DStrong l dl cands q)
    (hids : (q.global.contents.map (·.1.1)).Nodup) :
    q.postProcess.iter = (q.global.contents.filter fun x => decide
      (q.global.contents.countP (fun y => decide (y.1.2 = x.1.2 ∧ y.2 < x.2)) < dk)).map fun x => (x.1.1, x.2) := by
  have hst := hs.spec.sorted
  have hiter : ∀ a, (q.loc a).iter = (q.loc a).contents := by
    intro a
    have := (h.linv a).size_le
    rw [h.lcap] at this
    unfold Queue.iter Queue.contents
    rw [h.lL, Nat.min_eq_right this]
    simp [Queue.size]
  set removed := q.keys.flatMap fun a =>
    if (q.loc a).size > q.dk then ((q.loc a).iter.drop q.dk).map (·.1) else [] with hrem
  have hmem : ∀ x ∈ q.global.contents, x.1.1 ∈ removed ↔
      dk ≤ q.global.contents.countP (fun y => decide (y.1.2 = x.1.2 ∧ y.2 < x.2)) := by
    rintro ⟨⟨i, a⟩, d⟩ hx
    simp only
    have hxl : (i, d) ∈ (q.loc a).contents := by rw [hs.locs, mem_proj]; exact hx
    have hls : (q.loc a).contents.Pairwise ltd := by rw [hs.locs]; exact proj_strict a _ hst
    have hdrop := mem_drop_strict _ hls dk (i, d) hxl
    simp only at hdrop
    rw [hs.locs, countP_proj] at hdrop
    rw [← hdrop, ← hs.locs]
    rw [hrem, List.mem_flatMap]
    constructor
    · rintro ⟨b, hb, hm⟩
      split at hm
      · rw [List.mem_map] at hm
        obtain ⟨⟨i', d'⟩, hm, rfl⟩ := hm
        rw [hiter, h.qdk] at hm
        have hm2 := List.mem_of_mem_drop hm
        rw [hs.locs, mem_proj] at hm2
        have := List.inj_on_of_nodup_map hids hm2 hx rfl
        simp only [Prod.mk.injEq] at this
        obtain ⟨⟨-, rfl⟩, rfl⟩ := this
        exact hm
      · cases hm
    · intro hm
      refine ⟨a, hs.keys _ hx, ?_⟩
      have hlen : (q.loc a).size > q.dk := by
        rw [h.qdk, ← contents_length]
        by_contra hc
        rw [List.drop_eq_nil_of_le (by omega)] at hm
        cases hm
      rw [if_pos hlen, List.mem_map, hiter, h.qdk]
      exact ⟨(i, d), hm, rfl⟩
  have hfilt : (q.global.contents.filter fun x => !(removed.contains x.1.1)) =
      q.global.contents.filter fun x => decide
        (q.global.contents.countP (fun y => decide (y.1.2 = x.1.2 ∧ y.2 < x.2)) < dk) := by
    apply List.filter_congr
    intro x hx
    have := hmem x hx
    rw [Bool.eq_iff_iff]
    simp only [Bool.not_eq_true', List.contains_eq_mem, decide_eq_false_iff_not, this, decide_eq_true_eq]
    omega
  rw [← hfilt]
  unfold DQueue.postProcess
  simp only [← hrem]
  split
  · rename_i he
    have hnil : removed = [] := List.isEmpty_iff.1 he
    rw [hnil]
    have : (q.global.contents.filter fun x => !(([] : List I).contains x.1.1)) = q.global.contents := by simp
    rw [this]
    exact iter_eq l dl dk attr q h
  · have hrc := retain_contents q.global (fun x _ => !(removed.contains x.1))
    have hL : (q.global.retain fun x _ => !(removed.contains x.1)).searchL = q.global.searchL := by
      unfold Queue.retain Queue.truncate; split
      · rfl
      · dsimp only; split <;> rfl
    unfold DQueue.iter Queue.iter
    simp only [hL, h.gL]
    have hsz : (q.global.retain fun x _ => !(removed.contains x.1)).size ≤ l := by
      rw [← contents_length, hrc]
      refine Nat.le_trans (List.length_filter_le ..) ?_
      exact hs.spec.total
    rw [Nat.min_eq_right hsz]
    have : ((q.global.retain fun x _ => !(removed.contains x.1)).entries.take
        (q.global.retain fun x _ => !(removed.contains x.1)).size) =
        (q.global.retain fun x _ => !(removed.contains x.1)).entries := by
      simp [Queue.size]
    rw [this]
    show ((q.global.retain fun x _ => !(removed.contains x.1)).contents).map _ = _
    rw [hrc]

/-- **C63**, results (partial: distances and ids offered are pairwise different). After any history, post-processing
leaves exactly the stored candidates that have fewer than `dk` closer stored ones with their attribute, best first. -/
theorem C63_diverse_results_partial (pad : D) (l k dk : Nat) (hk : 1 ≤ k) (hkl : k ≤ l) (hdk : 1 ≤ dk)
    (attr : I → Option A) (ops : List (DOp I D)) (hd : ((offered attr ops).map (·.2)).Nodup)
    (hi : ((offered attr ops).map (·.1.1)).Nodup) :
    ∃ q g, drun pad (DQueue.new l k dk attr) ops = some q ∧ DiverseBest l (dk * l / k) (offered attr ops) g ∧
      q.postProcess.iter = (g.filter fun x => decide
        (g.countP (fun y => decide (y.1.2 = x.1.2 ∧ y.2 < x.2)) < dk)).map fun x => (x.1.1, x.2) := by
  obtain ⟨q, h1, h2⟩ := dweak_run pad l k dk hk hkl hdk attr ops
  have hs := dstrong_run pad l k dk hk hkl hdk attr ops hd q h1
  refine ⟨q, q.global.contents, h1, hs.spec, postProcess_iter l _ dk attr q h2 _ hs ?_⟩
  have hn : q.global.contents.Nodup := hs.spec.sorted.imp (fun hab => by rintro rfl; exact lt_irrefl _ hab)
  refine List.Nodup.map_on ?_ hn
  intro x hx y hy hxy
  exact List.inj_on_of_nodup_map hi (hs.spec.sub x hx) (hs.spec.sub y hy) hxy

/-- A strictly sorted list cut to the entries with fewer than `n` closer ones is its first `n`. -/
theorem rank_filter_length {X : Type} [DecidableEq X] (l : List (X × D)) (h : l.Pairwise ltd) (n : Nat) :
    (l.filter fun x => decide (l.countP (fun y => decide (y.2 < x.2)) < n)).length ≤ n := by
  have : (l.filter fun x => decide (l.countP (fun y => decide (y.2 < x.2)) < n)) = l.take n := by
    have hn : l.Nodup := h.imp (fun hab => by rintro rfl; exact lt_irrefl _ hab)
    apply ext_strict _ _ (h.sublist List.filter_sublist) (h.sublist (List.take_sublist _ _))
    intro x
    simp only [List.mem_filter, decide_eq_true_eq]
    constructor
    · rintro ⟨hx, hlt⟩
      have h1 : x ∉ l.drop n := by rw [mem_drop_strict l h n x hx]; omega
      rw [← List.take_append_drop n l, List.mem_append] at hx
      exact hx.resolve_right h1
    · intro hx
      have hxl := List.mem_of_mem_take hx
      refine ⟨hxl, ?_⟩
      by_contra hc
      have h1 := (mem_drop_strict l h n x hxl).2 (by omega)
      rw [← List.take_append_drop n l, List.nodup_append] at hn
      exact hn.2.2 x hx x h1 rfl
  rw [this, List.length_take]
  omega

/-- **C63**, the limit (partial: distances and ids offered are pairwise different). The results hold at most `dk`
candidates of each attribute value, and every candidate that is stored and among the `dk` closest stored ones of its
attribute is a result. -/
theorem C63_at_most_k_per_attribute_partial (pad : D) (l k dk : Nat) (hk : 1 ≤ k) (hkl : k ≤ l) (hdk : 1 ≤ dk)
    (attr : I → Option A) (ops : List (DOp I D)) (hd : ((offered attr ops).map (·.2)).Nodup)
    (hi : ((offered attr ops).map (·.1.1)).Nodup) :
    ∃ q, drun pad (DQueue.new l k dk attr) ops = some q ∧
      ∀ a, (q.postProcess.iter.filter fun x => decide (attr x.1 = some a)).length ≤ dk := by
  obtain ⟨q, g, h1, h2, h3⟩ := C63_diverse_results_partial pad l k dk hk hkl hdk attr ops hd hi
  refine ⟨q, h1, ?_⟩
  intro a
  have hattr : ∀ ops : List (DOp I D), ∀ x ∈ offered attr ops, attr x.1.1 = some x.1.2 := by
    intro ops
    induction ops using List.reverseRecOn with
    | nil => intro x hx; cases hx
    | append_singleton ops op ih =>
      intro x hx
      rw [offered_snoc] at hx
      split at hx
      · rename_i id d
        split at hx
        · rename_i b hb
          rcases List.mem_append.1 hx with hx | hx
          · exact ih x hx
          · simp only [List.mem_singleton] at hx; subst hx; exact hb
        · exact ih x hx
      · exact ih x hx
      · exact ih x hx
      · cases hx
  rw [h3, List.filter_map, List.length_map, List.filter_filter]
  have hst := h2.sorted
  have hp := rank_filter_length (proj a g) (proj_strict a g hst) dk
  refine Nat.le_trans (Nat.le_of_eq ?_) hp
  unfold proj
  rw [List.filter_map, List.length_map, List.filter_filter]
  congr 1
  apply List.filter_congr
  intro x hx
  have hxa := hattr ops x (h2.sub x hx)
  simp only [Function.comp, hxa, Option.some.injEq]
  rw [Bool.and_comm]
  by_cases ha : x.1.2 = a
  · subst ha
    have := countP_proj x.1.2 g x.2
    unfold proj at this
    rw [this]
  · simp [ha]

/-- **C63 fails on ties** (diverse_priority_queue.rs:188 with queue.rs:206–209). Removing the worst candidate of an
attribute from the global list misses it when another attribute has a candidate at the same distance; the entry stays,
nothing limits it any more, and the results hold more than `dk` of one attribute value. Here `l = 4`, `k = 4`, `dk = 1`
and attribute `0` (even ids) ends with two results. -/
theorem C63_tie_breaks_limit :
    (drun 0 (DQueue.new 4 4 1 (fun i => some (i % 2)) : DQueue Nat Nat Nat)
      [.insert 2 (some 10), .insert 1 (some 10), .insert 4 (some 5)]).map (fun q => q.postProcess.iter)
      = some [(4, 5), (1, 10), (2, 10)] := by decide +kernel

example : (drun 0 (DQueue.new 4 4 1 (fun i => some (i % 2)) : DQueue Nat Nat Nat)
      [.insert 2 (some 10), .insert 1 (some 11), .insert 4 (some 5), .pop, .insert 3 (some 20)]).map
        (fun q => q.postProcess.iter) = some [(4, 5), (1, 11)] := by decide +kernel

example : ((offered (fun i => some (i % 2))
    ([.insert 2 (some 10), .insert 1 (some 11), .insert 4 (some 5), .pop, .insert 3 (some 20)] :
      List (DOp Nat Nat))).map (·.2)).Nodup := by decide +kernel

/-- Without the checked parameters (`dk * l < k`) the first insertion panics (diverse_priority_queue.rs:182). -/
theorem C63_zero_local_limit_panics :
    drun 0 (DQueue.new 2 4 1 (fun i => some (i % 2)) : DQueue Nat Nat Nat) [.insert 2 (some 10)] = none := by
  decide +kernel

end Verif.Queue
