import Verif.Search.FilterModel
import Verif.Search.Props
import Verif.Search.RangeProps
import Mathlib.Algebra.Order.Floor.Ring

/-! Lemmas about the filtered searches (C65–C67). -/

namespace Verif.Search

open Verif.Queue

variable {I D : Type} [DecidableEq I] [LinearOrder D]

/-! ### Inline filtered search -/

/-- The evaluated ids accepted by the filter, with their distances. -/
def acceptedOf (G : Graph I D) (ok : I → Bool) (cs : List I) : List (I × Option D) :=
  (cs.filter ok).map fun i => (i, G.dist i)

theorem acceptedOf_append (G : Graph I D) (ok : I → Bool) (a b : List I) :
    acceptedOf G ok (a ++ b) = acceptedOf G ok a ++ acceptedOf G ok b := by
  simp [acceptedOf]

theorem mem_acceptedOf (G : Graph I D) (ok : I → Bool) (cs : List I) (x : I × Option D) :
    x ∈ acceptedOf G ok cs ↔ x.1 ∈ cs ∧ ok x.1 = true ∧ G.dist x.1 = x.2 := by
  unfold acceptedOf
  constructor
  · intro h
    obtain ⟨i, hi, rfl⟩ := List.mem_map.mp h
    rw [List.mem_filter] at hi
    exact ⟨hi.1, hi.2, rfl⟩
  · rintro ⟨h1, h2, h3⟩
    exact List.mem_map.mpr ⟨x.1, List.mem_filter.mpr ⟨h1, h2⟩, by rw [h3]⟩

theorem inlineNeighbor_fold (pad : D) (G : Graph I D) (ok : I → Bool) (r : List I) (q : Queue I D)
    (m : List (I × Option D)) (sv sm : Nat) :
    r.foldlM (inlineNeighbor pad G ok) (q, m, sv, sm) =
      (insertAll pad G q r).map fun q' =>
        (q', m ++ acceptedOf G ok r, sv + r.length, sm + (r.filter ok).length) := by
  induction r generalizing q m sv sm with
  | nil => simp [insertAll, acceptedOf]
  | cons x r ih =>
    have hins : insertAll pad G q (x :: r) =
        (q.insert pad x (G.dist x)).bind fun q1 => insertAll pad G q1 r := by
      unfold insertAll; rw [List.foldlM_cons]; rfl
    rw [List.foldlM_cons, hins]
    unfold inlineNeighbor
    dsimp only
    cases hq : q.insert pad x (G.dist x) with
    | none => rfl
    | some q1 =>
      simp only [Option.bind_some]
      have : (some (q1, if ok x = true then m ++ [(x, G.dist x)] else m, sv + 1,
          if ok x = true then sm + 1 else sm) >>= fun s' => r.foldlM (inlineNeighbor pad G ok) s') =
          r.foldlM (inlineNeighbor pad G ok) (q1, if ok x = true then m ++ [(x, G.dist x)] else m, sv + 1,
          if ok x = true then sm + 1 else sm) := rfl
      refine this.trans ?_
      rw [ih]
      congr 1
      funext q'
      by_cases hx : ok x = true
      · simp [acceptedOf, hx]; omega
      · simp [acceptedOf, hx]; omega

/-- A round without the adaptive step. -/
theorem inlineRound_iterate (pad : D) (G : Graph I D) (ok : I → Bool) (p : InlineParams)
    (s : InlineSt I D) (nodes : List I) (q : Queue I D) (hf : fillBeam s.scratch.best p.beam = some (nodes, q)) :
    inlineRound pad G ok p s nodes q =
      (iterate pad G p.beam s.scratch).bind fun t =>
        adaptStep p { scratch := t,
                      matched := s.matched ++ acceptedOf G ok (expandBeam G s.scratch.visited nodes).2,
                      sampleVisited := s.sampleVisited + (expandBeam G s.scratch.visited nodes).2.length,
                      sampleMatched := s.sampleMatched +
                        ((expandBeam G s.scratch.visited nodes).2.filter ok).length,
                      adjusted := s.adjusted } := by
  unfold inlineRound iterate
  rw [hf]
  dsimp only
  rw [inlineNeighbor_fold]
  cases insertAll pad G q (expandBeam G s.scratch.visited nodes).2 <;> rfl

/-- The multiplier used is between 1 and the scale factor. -/
theorem computeAdaptiveL_spec (logScale : Nat → Nat → Rat) (base visited matched : Nat) (q : Rat) (hq : 1 ≤ q) :
    ∃ x : Rat, 1 ≤ x ∧ x ≤ q ∧
      computeAdaptiveL logScale base visited matched (.fin q) = some (min (base * x).floor.toNat usizeMax) := by
  unfold computeAdaptiveL
  by_cases h : matched = 0 ∨ visited = 0
  · rw [if_pos h]
    exact ⟨q, hq, le_refl _, rfl⟩
  · rw [if_neg h]
    have hn : ¬ q < 1 := not_lt.mpr hq
    simp only [clampOne, if_neg hn, Option.map_some, mulCast]
    exact ⟨_, le_min (le_max_right _ _) hq, min_le_right _ _, rfl⟩

theorem floor_mul_mono (base : Nat) (x y : Rat) (h : x ≤ y) :
    (base * x : Rat).floor.toNat ≤ (base * y : Rat).floor.toNat := by
  apply Int.toNat_le_toNat
  have hb : (0 : Rat) ≤ base := by exact_mod_cast Nat.zero_le base
  have : (base : Rat) * x ≤ base * y := mul_le_mul_of_nonneg_left h hb
  have := Int.floor_le_floor this
  exact this

/-- Parameters for which the adaptive step cannot panic. -/
def InlineParams.Safe (p : InlineParams) : Prop :=
  ∀ a, p.adaptive = some a → ∃ q : Rat, a.scale = .fin q ∧ 1 ≤ q ∧ (p.l * q : Rat).floor.toNat ≤ p.lim

/-- The adaptive step changes at most the queue, by `reconfigure` to a size above `l`. -/
theorem adaptStep_spec (p : InlineParams) (hp : p.Safe) (s : InlineSt I D) :
    ∃ s', adaptStep p s = some s' ∧ s'.matched = s.matched ∧
      (s'.scratch = s.scratch ∨
        ∃ n, p.l < n ∧ p.adaptive ≠ none ∧ s'.scratch = { s.scratch with best := s.scratch.best.reconfigure n }) ∧
      (p.adaptive = none → s' = s) := by
  unfold adaptStep
  cases ha : p.adaptive with
  | none => exact ⟨s, rfl, rfl, Or.inl rfl, fun _ => rfl⟩
  | some a =>
    dsimp only
    split
    · obtain ⟨q, h1, h2, h3⟩ := hp a ha
      obtain ⟨x, x1, x2, hx⟩ := computeAdaptiveL_spec p.logScale p.l s.sampleVisited s.sampleMatched q h2
      rw [h1, hx]
      dsimp only
      have hle : min (p.l * x : Rat).floor.toNat usizeMax ≤ p.lim :=
        le_trans (min_le_left _ _) (le_trans (floor_mul_mono p.l x q x2) h3)
      split
      · rename_i hlt
        rw [if_neg (by omega)]
        exact ⟨_, rfl, rfl, Or.inr ⟨_, hlt, by simp, rfl⟩, fun h => by simp at h⟩
      · exact ⟨_, rfl, rfl, Or.inl rfl, fun h => by simp at h⟩
    · exact ⟨s, rfl, rfl, Or.inl rfl, fun _ => rfl⟩

theorem reconfigure_sublist (q : Queue I D) (n : Nat) : (q.reconfigure n).entries.Sublist q.entries := by
  unfold Queue.reconfigure
  dsimp only
  split
  · exact List.take_sublist _ _
  · exact List.Sublist.refl _

theorem core_reconfigure (G : Graph I D) (R : I → Prop) (s : St I D) (n : Nat) (h : Core G R s) :
    Core G R { s with best := s.best.reconfigure n } := by
  have hs := reconfigure_sublist s.best n
  constructor <;> simp only
  · exact h.nodup
  · exact h.ids_nodup.sublist (hs.map _)
  · exact fun e he => h.ids_visited e (hs.subset he)
  · exact fun e he => h.ids_dist e (hs.subset he)
  · exact fun e he => h.flag e (hs.subset he)
  · exact h.exp_visited
  · exact h.exp_closed
  · exact h.reach

/-- The invariant of the inline search. -/
structure InlineInv (G : Graph I D) (R : I → Prop) (Q : Queue I D → List I → Prop) (ok : I → Bool)
    (starts : List I) (s : InlineSt I D) : Prop where
  core : Core G R s.scratch
  inv : Inv s.scratch.best
  q : Q s.scratch.best s.scratch.computed
  matched : s.matched = acceptedOf G ok s.scratch.computed
  vis : s.scratch.visited = s.scratch.computed
  cmps : s.scratch.cmps + starts.length = s.scratch.computed.length
  hops : s.scratch.hops = s.scratch.expanded.length
  exp : s.scratch.expanded.Nodup
  starts_sub : ∀ x ∈ starts, x ∈ s.scratch.computed

theorem pop_none (q q' : Queue I D) (h : q.pop = some (none, q')) : q.hasNotVisited = false ∧ q' = q := by
  unfold Queue.pop at h
  dsimp only at h
  split at h
  · rename_i hc
    simp only [Option.some.injEq, Prod.mk.injEq, true_and] at h
    exact ⟨by simpa using hc, h.symm⟩
  · split at h
    · simp at h
    · split at h
      · simp at h
      · simp at h

theorem fillBeam_nil (q q' : Queue I D) (n : Nat) (hn : 1 ≤ n) (h : fillBeam q n = some ([], q')) :
    q.hasNotVisited = false ∧ q' = q := by
  obtain ⟨n, rfl⟩ : ∃ m, n = m + 1 := ⟨n - 1, by omega⟩
  unfold fillBeam at h
  cases hp : q.pop with
  | none => rw [hp] at h; simp at h
  | some r =>
    obtain ⟨o, q1⟩ := r
    rw [hp] at h
    cases o with
    | none =>
      simp only [Option.some.injEq, Prod.mk.injEq, true_and] at h
      subst h
      exact pop_none q _ hp
    | some x =>
      simp only at h
      split at h
      · simp at h
      · simp at h

theorem fillBeam_nonempty (q q' : Queue I D) (n : Nat) (nodes : List I) (hne : nodes ≠ [])
    (h : fillBeam q n = some (nodes, q')) : q.hasNotVisited = true := by
  by_contra hc
  simp only [Bool.not_eq_true] at hc
  cases n with
  | zero => simp [fillBeam] at h; exact hne h.1
  | succ n =>
    unfold fillBeam at h
    have : q.pop = some (none, q) := by unfold Queue.pop; simp [hc]
    rw [this] at h
    simp at h
    exact hne h.1

theorem iterate_new (pad : D) (G : Graph I D) (beam : Nat) (s s' : St I D) (nodes : List I) (q : Queue I D)
    (hf : fillBeam s.best beam = some (nodes, q)) (h : iterate pad G beam s = some s') :
    s'.computed = s.computed ++ (expandBeam G s.visited nodes).2 ∧ s'.expanded = s.expanded ++ nodes := by
  unfold iterate at h
  rw [hf] at h
  dsimp only at h
  split at h
  · simp at h
  · simp only [Option.some.injEq] at h
    subst h
    exact ⟨rfl, rfl⟩

theorem inlineLoop_spec (pad : D) (G : Graph I D) {Q : Queue I D → List I → Prop} (hQ : Stable pad G Q)
    {R : I → Prop} (hR : ∀ x y, R x → G.dist x ≠ none → y ∈ G.adj x → R y)
    (V : List I) (hV : ∀ x, R x → x ∈ V) (ok : I → Bool) (starts : List I) (p : InlineParams) (hp : p.Safe)
    (hb : 1 ≤ p.beam)
    (hA : p.adaptive ≠ none → ∀ (q : Queue I D) (cs : List I) (n : Nat), Inv q → Q q cs → p.l < n → Q (q.reconfigure n) cs)
    (stop : Nat → Bool)
    (fuel n : Nat) (s : InlineSt I D) (hs : InlineInv G R Q ok starts s)
    (hfuel : (V.filter fun v => decide (v ∉ s.scratch.expanded)).length < fuel) :
    ∃ s', inlineLoop pad G ok p stop fuel n s = some s' ∧ InlineInv G R Q ok starts s' ∧
      (s'.scratch.best.hasNotVisited = false ∨ ∃ m, stop m = true) ∧
      (p.adaptive = none → ∃ t, searchLoop pad G p.beam stop fuel n s.scratch = some t ∧ t = s'.scratch) := by
  induction fuel generalizing n s with
  | zero => omega
  | succ fuel ih =>
    unfold inlineLoop searchLoop
    by_cases hstop : stop n = true
    · rw [if_pos hstop]
      refine ⟨s, rfl, hs, Or.inr ⟨n, hstop⟩, fun _ => ⟨s.scratch, ?_, rfl⟩⟩
      rw [if_neg (by simp [hstop])]
    · rw [if_neg hstop]
      obtain ⟨nodes, q, f1, -⟩ :=
        fillBeam_spec p.beam s.scratch.best s.scratch.expanded hs.inv.toW hs.core.ids_nodup hs.core.flag
      rw [f1]
      dsimp only
      by_cases hne : nodes = []
      · subst hne
        rw [if_pos rfl]
        obtain ⟨e1, e2⟩ := fillBeam_nil _ _ _ hb f1
        subst e2
        refine ⟨_, rfl, hs, Or.inl e1, fun _ => ⟨s.scratch, ?_, rfl⟩⟩
        rw [if_neg (by simp [e1])]
      · rw [if_neg hne]
        have hnv := fillBeam_nonempty _ _ _ _ hne f1
        obtain ⟨s1, new, nodes', a1, a2, a3, a4, a5, a6, -, -, a9, a10⟩ :=
          iterate_spec pad G hQ hR p.beam hb s.scratch hs.core hs.inv.toW hs.q hnv
        obtain ⟨d1, d2⟩ := a10 hs.inv
        obtain ⟨n1, n2⟩ := iterate_new pad G p.beam s.scratch s1 nodes q f1 a1
        have hnn : nodes' = nodes := by
          have := a2.expanded; rw [n2] at this; exact (List.append_cancel_left this).symm
        have hnew : new = (expandBeam G s.scratch.visited nodes).2 := by
          have := a2.computed; rw [n1] at this; exact (List.append_cancel_left this).symm
        subst hnn
        rw [inlineRound_iterate pad G ok p s nodes' q f1, a1, Option.bind_some]
        obtain ⟨s2, b1, b2, b3, b4⟩ := adaptStep_spec p hp
          { scratch := s1,
            matched := s.matched ++ acceptedOf G ok (expandBeam G s.scratch.visited nodes').2,
            sampleVisited := s.sampleVisited + (expandBeam G s.scratch.visited nodes').2.length,
            sampleMatched := s.sampleMatched +
              ((expandBeam G s.scratch.visited nodes').2.filter ok).length,
            adjusted := s.adjusted }
        rw [b1]
        dsimp only at b2 b3 b4 ⊢
        have hi : InlineInv G R Q ok starts s2 := by
          have hm : s2.matched = acceptedOf G ok s1.computed := by
            rw [b2, hs.matched, n1, acceptedOf_append]
          have hexp : s1.expanded.Nodup := by
            rw [a2.expanded, List.nodup_append]
            refine ⟨hs.exp, d1, ?_⟩
            intro a ha b hb hab
            subst hab
            exact d2 a hb ha
          have hvis : s1.visited = s1.computed := by rw [a2.visited, a2.computed, hs.vis]
          have hcm : s1.cmps + starts.length = s1.computed.length := by
            rw [a2.cmps, a2.computed, List.length_append, ← hs.cmps]; omega
          have hho : s1.hops = s1.expanded.length := by
            rw [a2.hops, a2.expanded, List.length_append, hs.hops]
          have hst : ∀ x ∈ starts, x ∈ s1.computed := by
            intro x hx; rw [a2.computed]; exact List.mem_append_left _ (hs.starts_sub x hx)
          rcases b3 with b3 | ⟨k, k1, k2, b3⟩
          · constructor <;> rw [b3] <;> assumption
          · have hk := core_reconfigure G R s1 k a4
            have hk2 := reconfigure_inv s1.best a5 k (by omega)
            have hk3 := hA k2 s1.best s1.computed k a5 a6 k1
            constructor <;> rw [b3]
            · exact hk
            · exact hk2
            · exact hk3
            · exact hm
            · exact hvis
            · exact hcm
            · exact hho
            · exact hexp
            · exact hst
        have hex : s2.scratch.expanded = s.scratch.expanded ++ nodes' := by
          rcases b3 with b3 | ⟨k, -, -, b3⟩ <;> rw [b3] <;> exact a2.expanded
        have hlt : (V.filter fun v => decide (v ∉ s2.scratch.expanded)).length
            < (V.filter fun v => decide (v ∉ s.scratch.expanded)).length := by
          obtain ⟨x, hx⟩ := List.exists_mem_of_ne_nil _ a3
          rw [hex]
          exact filter_notMem_lt V s.scratch.expanded nodes' x (hV x (a9 x hx)) (d2 x hx) hx
        obtain ⟨s', c1, c2, c3, c4⟩ := ih (n + 1) s2 hi (by omega)
        refine ⟨s', c1, c2, c3, fun hno => ?_⟩
        obtain ⟨t, t1, t2⟩ := c4 hno
        refine ⟨t, ?_, t2⟩
        have hs2 : s2.scratch = s1 := by rw [b4 hno]
        rw [if_pos (by simp [hnv, hstop])]
        rw [hs2] at t1
        exact t1

/-- The start phase of the inline search, given that of the plain search: the same apart from `cmps`. -/
theorem inlineStarts_spec (pad : D) (G : Graph I D) (ok : I → Bool) (starts : List I) (s : InlineSt I D)
    (k : Nat) (t : St I D)
    (h : starts.foldlM (addStart pad G) { s.scratch with cmps := s.scratch.cmps + k } = some t) :
    ∃ s', starts.foldlM (inlineStart pad G ok) s = some s' ∧
      t = { s'.scratch with cmps := s'.scratch.cmps + k + starts.length } ∧
      s'.scratch.cmps = s.scratch.cmps ∧
      s'.matched = s.matched ++ acceptedOf G ok starts ∧
      s'.sampleVisited = s.sampleVisited ∧ s'.sampleMatched = s.sampleMatched ∧ s'.adjusted = s.adjusted := by
  induction starts generalizing s k with
  | nil =>
    simp only [List.foldlM_nil] at h
    cases h
    exact ⟨s, rfl, by simp, rfl, by simp [acceptedOf], rfl, rfl, rfl⟩
  | cons x starts ih =>
    rw [List.foldlM_cons] at h
    unfold addStart at h
    dsimp only at h
    cases hq : s.scratch.best.insert pad x (G.dist x) with
    | none => rw [hq] at h; cases h
    | some q =>
      rw [hq] at h
      obtain ⟨s', h1, h2, h3, h4, h5, h6, h7⟩ := ih
        { s with
          scratch := { s.scratch with
            best := q
            visited := if x ∈ s.scratch.visited then s.scratch.visited else s.scratch.visited ++ [x]
            computed := s.scratch.computed ++ [x] }
          matched := if ok x then s.matched ++ [(x, G.dist x)] else s.matched } (k + 1) h
      refine ⟨s', ?_, ?_, h3, ?_, h5, h6, h7⟩
      · rw [List.foldlM_cons]
        unfold inlineStart
        rw [hq]
        exact h1
      · rw [h2]
        have : s'.scratch.cmps + (k + 1) + starts.length = s'.scratch.cmps + k + (x :: starts).length := by
          simp only [List.length_cons]; omega
        rw [this]
      · rw [h4]
        by_cases hx : ok x = true <;> simp [acceptedOf, hx]

theorem Core.cmps_irrel {G : Graph I D} {R : I → Prop} {s : St I D} (c : Nat) :
    Core G R { s with cmps := c } ↔ Core G R s := by
  constructor
  · intro h
    exact ⟨h.nodup, h.ids_nodup, h.ids_visited, h.ids_dist, h.flag, h.exp_visited, h.exp_closed, h.reach⟩
  · intro h
    exact ⟨h.nodup, h.ids_nodup, h.ids_visited, h.ids_dist, h.flag, h.exp_visited, h.exp_closed, h.reach⟩

/-- Counters play no role in the plain loop. -/
theorem searchLoop_cmps (pad : D) (G : Graph I D) (beam : Nat) (stop : Nat → Bool) (fuel : Nat) :
    ∀ n (s : St I D) (k : Nat), searchLoop pad G beam stop fuel n { s with cmps := s.cmps + k } =
      (searchLoop pad G beam stop fuel n s).map fun t => { t with cmps := t.cmps + k } := by
  induction fuel with
  | zero => intro n s k; rfl
  | succ fuel ih =>
    intro n s k
    unfold searchLoop
    dsimp only
    split
    · have : iterate pad G beam { s with cmps := s.cmps + k } =
          (iterate pad G beam s).map fun t => { t with cmps := t.cmps + k } := by
        unfold iterate
        dsimp only
        cases fillBeam s.best beam with
        | none => rfl
        | some r =>
          dsimp only
          cases insertAll pad G r.2 (expandBeam G s.visited r.1).2 with
          | none => rfl
          | some q => simp only [Option.map_some]; congr 2; omega
      rw [this]
      cases iterate pad G beam s with
      | none => rfl
      | some s1 => exact ih (n + 1) s1 k
    · rfl

/-- Everything known about the final state of an inline filtered search. -/
theorem inline_spec (pad : D) (G : Graph I D) {Q : Queue I D → List I → Prop} (hQ : Stable pad G Q)
    (ok : I → Bool) (starts : List I) (p : InlineParams)
    (stop : Nat → Bool) {R : I → Prop} (hR : ∀ x y, R x → G.dist x ≠ none → y ∈ G.adj x → R y)
    (hRs : ∀ x ∈ starts, R x) (V : List I) (hV : ∀ x, R x → x ∈ V)
    (hn : starts.Nodup) (hp : p.Safe) (hl : 1 ≤ p.l) (hb : 1 ≤ p.beam)
    (hA : p.adaptive ≠ none → ∀ (q : Queue I D) (cs : List I) (n : Nat), Inv q → Q q cs → p.l < n → Q (q.reconfigure n) cs)
    (hq0 : Q (Queue.new (p.l + starts.length)) [])
    (fuel : Nat) (hf : V.length < fuel) :
    ∃ s, inlineTraverse pad G ok starts p stop fuel = some s ∧ InlineInv G R Q ok starts s ∧
      (s.scratch.best.hasNotVisited = false ∨ ∃ m, stop m = true) ∧
      (p.adaptive = none → knnTraverse pad G starts p.l p.beam stop fuel =
        some { s.scratch with cmps := s.scratch.cmps + starts.length }) := by
  obtain ⟨t, a1, a2, a3, a4, a5, -, -⟩ := starts_spec pad G hQ
    (R := R) starts (St.create p.l starts.length) hn (by simp [St.create]) hRs (core_create G R _ _)
    (new_inv _ (by omega)) hq0
  obtain ⟨s0, b1, b2, b3, b4, b5, b6, b7⟩ := inlineStarts_spec pad G ok starts
    { scratch := St.create p.l starts.length, matched := [], sampleVisited := 0, sampleMatched := 0,
      adjusted := false } 0 t a1
  simp only [Nat.add_zero] at b2
  have hinv : InlineInv G R Q ok starts s0 := by
    have e1 : s0.scratch.computed = starts := by
      have := a2.computed; rw [b2] at this; simpa [St.create] using this
    have e2 : s0.scratch.visited = starts := by
      have := a2.visited; rw [b2] at this; simpa [St.create] using this
    have e3 : s0.scratch.expanded = [] := by
      have := a2.expanded; rw [b2] at this; simpa [St.create] using this
    have e4 : s0.scratch.hops = 0 := by
      have := a2.hops; rw [b2] at this; simpa [St.create] using this
    have e5 : s0.scratch.cmps = 0 := by rw [b3]; rfl
    constructor
    · rw [b2] at a3; exact (Core.cmps_irrel _).mp a3
    · rw [b2] at a4; exact a4
    · rw [b2] at a5; exact a5
    · rw [b4, e1]; simp
    · rw [e1, e2]
    · rw [e1, e5]; omega
    · rw [e3, e4]; rfl
    · rw [e3]; exact List.nodup_nil
    · rw [e1]; exact fun x hx => hx
  obtain ⟨s', c1, c2, c3, c4⟩ := inlineLoop_spec pad G hQ hR V hV ok starts p hp hb hA stop fuel 0 s0 hinv
    (Nat.lt_of_le_of_lt (List.length_filter_le _ _) hf)
  refine ⟨s', ?_, c2, c3, fun hno => ?_⟩
  · unfold inlineTraverse; rw [b1]; exact c1
  · obtain ⟨u, u1, u2⟩ := c4 hno
    unfold knnTraverse searchInternal
    rw [if_pos (by simp [St.create]), a1]
    dsimp only
    rw [b2, searchLoop_cmps, u1, u2]
    rfl

/-- A queue that has lost nothing as long as at most `l` comparable ids were fed. -/
def CompleteQ (G : Graph I D) (l : Nat) (q : Queue I D) (cs : List I) : Prop :=
  q.auto = false ∧ l ≤ q.capacity ∧ q.searchL = q.capacity ∧
    ((comparable (cs.map fun i => (i, G.dist i))).length ≤ l →
      q.contents.Perm (comparable (cs.map fun i => (i, G.dist i))))

theorem completeQ_stable (pad : D) (G : Graph I D) (l : Nat) : Stable pad G (CompleteQ G l) := by
  constructor
  · rintro q cs x q' hi ⟨h1, h2, h3, h4⟩ hins
    rw [CompleteQ, List.map_append]
    simp only [List.map_cons, List.map_nil]
    cases hd : G.dist x with
    | none =>
      rw [hd] at hins
      simp only [Queue.insert, Option.some.injEq] at hins
      subst hins
      exact ⟨h1, h2, h3, by rw [comparable_append_none]; exact h4⟩
    | some d =>
      rw [hd] at hins
      obtain ⟨q3, a1, a2, a3, a4, a5, -⟩ := insert_core pad q x d hi.cap hi.size_le hi.sorted
      rw [hins] at a1; cases a1
      have hg : grown q = q.capacity := by simp [grown, h1]
      refine ⟨by rw [a4, h1], by rw [a3, hg]; exact h2, by rw [a5, a3, hg, h3], ?_⟩
      rw [comparable_append_some, List.length_append, List.length_singleton]
      intro hlen
      have hp := h4 (by omega)
      have hsz : q.size < q.capacity := by
        have := hp.length_eq
        unfold Queue.contents at this
        rw [List.length_map] at this
        unfold Queue.size
        omega
      unfold Queue.contents at hp ⊢
      rw [a2, hg, List.take_of_length_le (by rw [List.orderedInsert_length]; exact hsz), contents_orderedInsert]
      refine (List.perm_orderedInsert (fun a b : I × D => a.2 ≤ b.2) (x, d)
        (q.entries.map fun e => (e.id, e.dist))).trans ?_
      exact (hp.cons (x, d)).trans (List.perm_append_singleton _ _).symm
  · rintro q cs q' ⟨h1, h2, h3, h4⟩ hc hcap hauto hL
    exact ⟨by rw [hauto, h1], by rw [hcap]; exact h2, by rw [hcap, hL, h3], by rw [hc]; exact h4⟩

theorem completeQ_reconfigure (G : Graph I D) (l n : Nat) (q : Queue I D) (cs : List I)
    (h : CompleteQ G l q cs) (hn : l < n) : CompleteQ G l (q.reconfigure n) cs := by
  obtain ⟨h1, h2, h3, h4⟩ := h
  unfold Queue.reconfigure
  dsimp only
  refine ⟨?_, ?_, ?_, ?_⟩
  · split <;> exact h1
  · exact Nat.le_of_lt hn
  · split <;> rfl
  · intro hlen
    have hp := h4 hlen
    have : ¬ n < q.size := by
      have := hp.length_eq
      unfold Queue.contents at this
      rw [List.length_map] at this
      unfold Queue.size
      omega
    split
    · rename_i hc; exact absurd hc this
    · exact hp

end Verif.Search
