import Verif.Search.DiverseExact
import Mathlib.LinearAlgebra.Matrix.Determinant.Basic
import Mathlib.Algebra.Order.Ring.Rat
import Mathlib.Data.Rat.Defs
import Mathlib.Tactic.NormNum

/-! # C82: the diversity selection -/

namespace Verif.Diversity

/-! ## Any arithmetic: rounding, infinities and NaN included -/

section
variable {K : Type}

theorem dd_eq (A : Arith K) (rows : List (List K)) (distances query : List K) (hq : query ≠ [])
    (hd : distances.length = rows.length) (k : Nat) (hk : k ≤ rows.length) (hk0 : k ≠ 0) (params : Params K) :
    determinantDiversity A rows query.length distances query k params
      = (loop A k k (init A (scaledRows A (scaleOf A (distanceRange A distances) params.power (invSqrtEta A params.eta))
          rows distances))).map fun s => .ok s.selected := by
  unfold determinantDiversity
  dsimp only
  have h1 : Nat.min k rows.length = k := Nat.min_eq_left hk
  rw [if_neg (by simp), if_neg (by simp [hd]), h1, if_neg (by simp [hq, hk0]), greedy_eq A rows distances k hk hk0 _ hd,
    Option.map_map]
  rfl

/-- **C82, the rows selected.** Whatever the arithmetic does, the selection returns the smaller of `k` and
the number of candidates, as distinct row numbers, without panicking; and a smaller `k` returns the
beginning of what a greater one returns. -/
theorem C82_selection (A : Arith K) (rows : List (List K)) (distances query : List K) (hq : query ≠ [])
    (hd : distances.length = rows.length) (params : Params K) :
    ∃ sel : List Nat, sel.length = rows.length ∧ sel.Nodup ∧ (∀ i ∈ sel, i < rows.length) ∧
      ∀ k, determinantDiversity A rows query.length distances query k params = some (.ok (sel.take k)) := by
  set scale := scaleOf A (distanceRange A distances) params.power (invSqrtEta A params.eta) with hscale
  set s0 := init A (scaledRows A scale rows distances) with hs0
  have hlen : (scaledRows A scale rows distances).length = rows.length := by simp [scaledRows, hd]
  have hw : Wf rows.length s0 := by rw [← hlen]; exact init_wf A _
  have hsel0 : s0.selected = [] := rfl
  by_cases h0 : rows = []
  · refine ⟨[], by simp [h0], List.nodup_nil, by simp, ?_⟩
    intro k
    unfold determinantDiversity
    rw [if_neg (by simp), if_neg (by simp [hd]), if_pos (by simp [h0])]
    simp
  have hn0 : rows.length ≠ 0 := fun h => h0 (List.length_eq_zero_iff.mp h)
  obtain ⟨s', g1, g2, g3, g4, -, -⟩ := loop_induct A rows.length rows.length le_rfl (fun _ => True) (fun _ => True)
    (by simp) (by simp) (by simp) rows.length s0 hw trivial (by rw [hsel0]; simp)
  refine ⟨s'.selected, g2, g3, g4, ?_⟩
  intro k
  by_cases hk0 : k = 0
  · subst hk0
    unfold determinantDiversity
    rw [if_neg (by simp), if_neg (by simp [hd]), if_pos (by simp)]
    simp
  by_cases hk : k ≤ rows.length
  · rw [dd_eq A rows distances query hq hd k hk hk0, ← hscale, ← hs0]
    obtain ⟨s1, s2, e1, e2, e3⟩ := loop_prefix A k rows.length rows.length hk le_rfl k rows.length s0 hw
      (by rw [hsel0]; simp) (by rw [hsel0]; simp)
    rw [g1] at e2
    rw [e1, Option.map_some, e3, ← Option.some.inj e2]
  · have : determinantDiversity A rows query.length distances query k params
        = determinantDiversity A rows query.length distances query rows.length params := by
      unfold determinantDiversity
      have h1 : Nat.min k rows.length = Nat.min rows.length rows.length := by
        simp only [Nat.min_self]; exact Nat.min_eq_right (by omega)
      rw [h1]
    rw [this, dd_eq A rows distances query hq hd _ le_rfl hn0, ← hscale, ← hs0, g1, Option.map_some,
      List.take_of_length_le (by omega)]

/-- **C82, arguments.** A query of another dimension and a wrong number of distances are refused, also for
empty inputs; zero-dimensional vectors give an empty selection. -/
theorem C82_arguments (A : Arith K) (rows : List (List K)) (ncols : Nat) (distances query : List K) (k : Nat)
    (params : Params K) :
    (ncols ≠ query.length → determinantDiversity A rows ncols distances query k params = some (.error .queryDimension)) ∧
    (ncols = query.length → distances.length ≠ rows.length →
      determinantDiversity A rows ncols distances query k params = some (.error .distanceCount)) ∧
    (ncols = query.length → distances.length = rows.length → ncols = 0 →
      determinantDiversity A rows ncols distances query k params = some (.ok [])) := by
  unfold determinantDiversity
  refine ⟨fun h => if_pos h, fun h1 h2 => ?_, fun h1 h2 h3 => ?_⟩
  · rw [if_neg (by simpa using h1), if_pos h2]
  · rw [if_neg (by simpa using h1), if_neg (by simpa using h2), if_pos (.inr h3)]

/-- **C82, in-memory search.** The diversity post-processor hands on exactly the candidates it was given, each
with its own distance, in another order. -/
theorem C82_in_memory (A : Arith K) (store : Nat → Option (List K)) (query : List K) (hq : query ≠ [])
    (params : Params K) (cands : List (Nat × K))
    (hs : ∀ c ∈ cands, ∃ v, store c.1 = some v ∧ v.length = query.length) :
    ∃ out, postProcess A store query params cands = some (.ok out) ∧ out.Perm cands := by
  have hg : ∀ cs : List (Nat × K), (∀ c ∈ cs, ∃ v, store c.1 = some v ∧ v.length = query.length) →
      ∃ rows, gather store query.length cs = some rows ∧ rows.length = cs.length := by
    intro cs
    induction cs with
    | nil => intro _; exact ⟨[], rfl, rfl⟩
    | cons c cs ih =>
      intro h
      obtain ⟨v, h1, h2⟩ := h c (by simp)
      obtain ⟨rows, h3, h4⟩ := ih (fun x hx => h x (by simp [hx]))
      refine ⟨v :: rows, ?_, by simp [h4]⟩
      rw [gather, h1]
      dsimp only
      rw [if_pos h2, h3]
      rfl
  obtain ⟨rows, r1, r2⟩ := hg cands hs
  obtain ⟨sel, h1, h2, h3, h4⟩ := C82_selection A rows (cands.map (·.2)) query hq (by simp [r2]) params
  have hsel := h4 cands.length
  rw [List.take_of_length_le (by omega)] at hsel
  have hperm : sel.Perm (List.range cands.length) := by
    refine List.Subperm.perm_of_length_le (List.subperm_of_subset h2 fun i hi => ?_) (by simp; omega)
    exact List.mem_range.mpr (by rw [← r2]; exact h3 i hi)
  obtain ⟨out, o1, o2, o3⟩ := mapM_some (fun i => cands[i]?) sel (fun i hi => by
    have := h3 i hi
    exact ⟨_, List.getElem?_eq_getElem (by omega)⟩)
  refine ⟨out, ?_, ?_⟩
  · unfold postProcess
    rw [r1]
    dsimp only
    rw [hsel]
    dsimp only
    unfold reorder
    rw [o1]
    rfl
  · have hout : out = sel.filterMap (fun i => cands[i]?) := by
      clear h4 hsel hperm o2 o3 h1 h2
      induction sel generalizing out with
      | nil => rw [List.mapM_nil] at o1; rw [← Option.some.inj o1]; rfl
      | cons a as ih =>
        have ha : a < cands.length := by rw [← r2]; exact h3 a (by simp)
        rw [List.mapM_cons, List.getElem?_eq_getElem ha] at o1
        cases hm : as.mapM (fun i => cands[i]?) with
        | none => rw [hm] at o1; cases o1
        | some r =>
          rw [hm] at o1
          rw [List.filterMap_cons, List.getElem?_eq_getElem ha, ← ih (fun i hi => h3 i (by simp [hi])) r hm]
          exact (Option.some.inj o1).symm
    rw [hout]
    refine (hperm.filterMap _).trans (List.Perm.of_eq ?_)
    refine List.ext_getElem? fun i => ?_
    have : (List.range cands.length).filterMap (fun i => cands[i]?) = cands := by
      have h5 : ∀ l : List (Nat × K), (List.range l.length).filterMap (fun i => l[i]?) = l := by
        intro l
        induction l with
        | nil => rfl
        | cons a as ih =>
          rw [List.length_cons, List.range_succ_eq_map, List.filterMap_cons]
          simp only [List.getElem?_cons_zero, List.filterMap_map]
          congr 1
      exact h5 cands
    rw [this]

end

/-! ## Exact arithmetic: determinants -/

section
variable {K : Type} [Field K] [LinearOrder K] [IsStrictOrderedRing K]

omit [IsStrictOrderedRing K] [Field K] in
theorem foldl_min (l : List K) (a : K) :
    l.foldl min a ≤ a ∧ (∀ x ∈ l, l.foldl min a ≤ x) ∧ (l.foldl min a = a ∨ l.foldl min a ∈ l) := by
  induction l generalizing a with
  | nil => simp
  | cons b bs ih =>
    obtain ⟨h1, h2, h3⟩ := ih (min a b)
    rw [List.foldl_cons]
    refine ⟨h1.trans (min_le_left _ _), ?_, ?_⟩
    · intro x hx
      rcases List.mem_cons.mp hx with rfl | hx
      · exact h1.trans (min_le_right _ _)
      · exact h2 x hx
    · rcases h3 with h3 | h3
      · rcases min_choice a b with h | h
        · left; rw [h3, h]
        · right; rw [h3, h]; simp
      · right; simp [h3]

omit [IsStrictOrderedRing K] [Field K] in
theorem foldl_max (l : List K) (a : K) :
    a ≤ l.foldl max a ∧ (∀ x ∈ l, x ≤ l.foldl max a) ∧ (l.foldl max a = a ∨ l.foldl max a ∈ l) := by
  induction l generalizing a with
  | nil => simp
  | cons b bs ih =>
    obtain ⟨h1, h2, h3⟩ := ih (max a b)
    rw [List.foldl_cons]
    refine ⟨(le_max_left _ _).trans h1, ?_, ?_⟩
    · intro x hx
      rcases List.mem_cons.mp hx with rfl | hx
      · exact (le_max_right _ _).trans h1
      · exact h2 x hx
    · rcases h3 with h3 | h3
      · rcases max_choice a b with h | h
        · left; rw [h3, h]
        · right; rw [h3, h]; simp
      · right; simp [h3]

omit [IsStrictOrderedRing K] in
theorem range_exact (pow : K → K → K) (sqrt : K → K) (ε blo bhi lo hi : K) (ds : List K) (h : IsRange ds lo hi)
    (hb : ∀ d ∈ ds, blo ≤ d ∧ d ≤ bhi) : distanceRange (exact pow sqrt ε blo bhi) ds = ⟨lo, hi⟩ := by
  have hfold : ∀ (l : List K) (a b : K),
      l.foldl (fun (r : Range K) d => (⟨min r.min d, max r.max d⟩ : Range K)) ⟨a, b⟩ = ⟨l.foldl min a, l.foldl max b⟩ := by
    intro l
    induction l with
    | nil => intro a b; rfl
    | cons x xs ih => intro a b; exact ih _ _
  have h1 : distanceRange (exact pow sqrt ε blo bhi) ds = ⟨ds.foldl min bhi, ds.foldl max blo⟩ := hfold ds bhi blo
  rw [h1]
  obtain ⟨m1, m2, m3⟩ := foldl_min ds bhi
  obtain ⟨n1, n2, n3⟩ := foldl_max ds blo
  congr 1
  · refine le_antisymm (m2 lo h.lo_mem) ?_
    rcases m3 with m3 | m3
    · rw [m3]; exact (hb lo h.lo_mem).2
    · exact h.lo_le _ m3
  · refine le_antisymm ?_ (n2 hi h.hi_mem)
    rcases n3 with n3 | n3
    · rw [n3]; exact (hb hi h.hi_mem).1
    · exact h.le_hi _ n3

omit [LinearOrder K] [IsStrictOrderedRing K] in
theorem inner_map (c : K) (x y : List K) : inner (x.map (· * c)) (y.map (· * c)) = c * c * inner x y := by
  unfold inner
  induction x generalizing y with
  | nil => simp
  | cons a as ih =>
    cases y with
    | nil => simp
    | cons b bs =>
      simp only [List.map_cons, List.zipWith_cons_cons, List.sum_cons, ih]
      ring

/-- A greedy selection is determined by the vectors. -/
theorem greedy_unique (x : Nat → List K) (n : Nat) (a b : List Nat) (hl : a.length = b.length) (ha : a.Nodup)
    (hb : b.Nodup) (han : ∀ i ∈ a, i < n) (hbn : ∀ i ∈ b, i < n) (hga : IsGreedy x n a) (hgb : IsGreedy x n b) : a = b := by
  have hnot : ∀ (l : List Nat) (t : Nat) (ht : t < l.length), l.Nodup → l[t] ∉ l.take t := by
    intro l t ht hn hm
    obtain ⟨i, hi, he⟩ := List.getElem_of_mem hm
    rw [List.getElem_take] at he
    have : i < t := by simp at hi; omega
    have := (List.nodup_iff_injective_get.mp hn) (a₁ := ⟨i, by omega⟩) (a₂ := ⟨t, ht⟩) he
    simp at this
    omega
  have key : ∀ t, t ≤ a.length → a.take t = b.take t := by
    intro t
    induction t with
    | zero => intro _; simp
    | succ t ih =>
      intro ht
      have e := ih (by omega)
      have hta : t < a.length := by omega
      have htb : t < b.length := by omega
      rw [List.take_succ_eq_append_getElem hta, List.take_succ_eq_append_getElem htb, e]
      congr 2
      have na := hnot a t hta ha
      have nb := hnot b t htb hb
      have g1 := hga t b[t] hta (hbn _ (List.getElem_mem _)) (by rw [e]; exact nb)
      have g2 := hgb t a[t] htb (han _ (List.getElem_mem _)) (by rw [← e]; exact na)
      rw [e] at g1
      have heq := le_antisymm g1.1 g2.1
      exact le_antisymm (g2.2 heq.symm) (g1.2 heq)
  have := key a.length le_rfl
  rwa [List.take_of_length_le le_rfl, List.take_of_length_le (by omega)] at this

/-- **C82, diversity.** With exact arithmetic the selection is greedy for the Gram determinant: every row
selected maximizes the determinant of the Gram matrix of the scaled vectors selected so far together with
it, the last such row being taken. The vectors are the candidates scaled by the power of their relevance;
`eta` does not matter. -/
theorem C82_greedy (pow : K → K → K) (sqrt : K → K) (ε blo bhi : K) (hsq : ∀ a, 0 < a → sqrt a ≠ 0)
    (rows : List (List K)) (distances query : List K) (hq : query ≠ []) (hd : distances.length = rows.length)
    (hdim : ∀ r ∈ rows, r.length = query.length) (lo hi : K) (hr : IsRange distances lo hi)
    (hb : ∀ d ∈ distances, blo ≤ d ∧ d ≤ bhi) (k : Nat) (params : Params K) :
    ∃ sel, determinantDiversity (exact pow sqrt ε blo bhi) rows query.length distances query k params = some (.ok sel) ∧
      sel.length = min k rows.length ∧ sel.Nodup ∧ (∀ i ∈ sel, i < rows.length) ∧
      IsGreedy (scaled pow ε params.power lo hi rows distances) rows.length sel := by
  set A := exact pow sqrt ε blo bhi with hA
  by_cases hk0 : min k rows.length = 0
  · refine ⟨[], ?_, by simp [hk0], List.nodup_nil, by simp, ?_⟩
    · unfold determinantDiversity
      rw [if_neg (by simp), if_neg (by simp [hd])]
      exact if_pos (.inl hk0)
    · intro t j ht; simp at ht
  have hdd : determinantDiversity A rows query.length distances query k params
      = determinantDiversity A rows query.length distances query (min k rows.length) params := by
    unfold determinantDiversity
    have h1 : Nat.min (min k rows.length) rows.length = Nat.min k rows.length := by
      change min (min k rows.length) rows.length = min k rows.length
      omega
    rw [h1]
  rw [hdd, dd_eq A rows distances query hq hd _ (min_le_right _ _) hk0, range_exact pow sqrt ε blo bhi lo hi distances hr hb]
  set c := invSqrtEta A params.eta with hc
  have hc0 : c ≠ 0 := by
    rw [hc]
    unfold invSqrtEta
    split
    · rename_i hlt
      have : 0 < params.eta := by
        simp only [Arith.lt, hA, exact] at hlt
        by_contra hn
        rw [if_neg hn] at hlt
        by_cases h2 : params.eta < 0 <;> simp [h2] at hlt
      exact div_ne_zero one_ne_zero (hsq _ this)
    · exact one_ne_zero
  set scale := scaleOf A ⟨lo, hi⟩ params.power c with hscale
  set Y := scaledRows A scale rows distances with hY
  set x := scaled pow ε params.power lo hi rows distances with hx
  set d := query.length
  have hYlen : Y.length = rows.length := by simp [hY, scaledRows, hd]
  have hYget : ∀ i, (hi' : i < rows.length) → Y[i]? = some ((x i).map (· * c)) := by
    intro i hi'
    have hi2 : i < distances.length := by omega
    rw [hY, scaledRows, List.getElem?_zipWith, List.getElem?_eq_getElem hi', List.getElem?_eq_getElem hi2]
    simp only [hx, scaled, List.getD_eq_getElem?_getD, List.getElem?_eq_getElem hi', List.getElem?_eq_getElem hi2,
      Option.getD_some, List.map_map]
    congr 1
    refine List.map_congr_left fun v _ => ?_
    change v * (pow (relevance ε lo hi distances[i]) params.power * c) = v * _ * c
    rw [mul_assoc]
  have hxlen : ∀ i, i < rows.length → (x i).length = d := by
    intro i hi'
    simp only [hx, scaled, List.length_map, List.getD_eq_getElem?_getD, List.getElem?_eq_getElem hi', Option.getD_some]
    exact hdim _ (List.getElem_mem _)
  let u : Nat → Fin d → K := fun i => vec d ((x i).map (· * c))
  have hw : Wf rows.length (init A Y) := by rw [← hYlen]; exact init_wf A Y
  have hdet0 : (gramV u (init A Y).selected).det = 1 := by
    change Matrix.det (n := Fin 0) _ = 1
    exact Matrix.det_fin_zero
  have hex : Ex u rows.length (init A Y) := by
    refine ⟨?_, ?_, ?_, ?_⟩
    · intro i hi' _
      have hl : ((x i).map (· * c)).length = d := by rw [List.length_map]; exact hxlen i hi'
      refine ⟨(x i).map (· * c), hYget i hi', hl, ?_, ?_, ?_⟩
      · simp only [init, List.getElem?_map, hYget i hi']
        rfl
      · simp only [u, sub_self]; exact Submodule.zero_mem _
      · intro t ht; simp [init] at ht
    · rw [hdet0]; exact zero_le_one
    · intro h0
      rw [hdet0] at h0
      exact absurd h0 one_ne_zero
    · intro t j ht; simp [init] at ht
  obtain ⟨s', g1, g2, g3, g4, g5, -⟩ := loop_induct A (min k rows.length) rows.length (min_le_right _ _)
    (Ex u rows.length) (GreedyV u rows.length) (fun s h => h.greedy)
    (fun s p hws hP h1 h2 h3 => ex_pick pow sqrt ε blo bhi hws hP p h1 h2 h3)
    (fun s p s' hws hP h1 h2 h3 h4 => ex_deflate pow sqrt ε blo bhi hws hP p h1 h2 h3 h4)
    (min k rows.length) (init A Y) hw hex (by simp [init])
  refine ⟨s'.selected, by rw [g1]; rfl, g2, g3, g4, ?_⟩
  have hgram : ∀ l : List Nat, (∀ i ∈ l, i < rows.length) → (gramV u l).det = (c * c) ^ l.length * (gram x l).det := by
    intro l hl
    have : gramV u l = (c * c) • gram x l := by
      ext a b
      have ha := hl l[a] (List.getElem_mem _)
      have hb' := hl l[b] (List.getElem_mem _)
      simp only [gramV, gram, Matrix.of_apply, Matrix.smul_apply, smul_eq_mul]
      rw [← inner_map, inner_eq d _ _ (by rw [List.length_map]; exact hxlen _ ha) (by rw [List.length_map]; exact hxlen _ hb')]
    rw [this, Matrix.det_smul, Fintype.card_fin]
  intro t j ht hj hj'
  have hmem : ∀ i, i < rows.length → ∀ y ∈ s'.selected.take t ++ [i], y < rows.length := by
    intro i hi' y hy
    rcases List.mem_append.mp hy with hy | hy
    · exact g4 y (List.mem_of_mem_take hy)
    · rw [List.mem_singleton] at hy; omega
  have hg := g5 t j ht hj hj'
  have hg' : ∀ i, i < rows.length → (gramV u (s'.selected.take t ++ [i])).det
      = (c * c) ^ (t + 1) * (gram x (s'.selected.take t ++ [i])).det := by
    intro i hi'
    have hl : (s'.selected.take t ++ [i]).length = t + 1 := by
      rw [List.length_append, List.length_take, List.length_singleton]; omega
    rw [hgram _ (hmem i hi')]
    exact congrArg (fun e => (c * c) ^ e * _) hl
  rw [hg' j hj, hg' _ (g4 _ (List.getElem_mem _))] at hg
  have hpos : 0 < (c * c) ^ (t + 1) :=
    pow_pos (lt_of_le_of_ne (mul_self_nonneg c) (Ne.symm (mul_ne_zero hc0 hc0))) _
  exact ⟨le_of_mul_le_mul_left hg.1 hpos, fun he => hg.2 (by rw [he])⟩

/-- **C82, relevance.** A closer candidate is scaled by at least as much as a farther one, and no candidate
is scaled to zero, if `powf` is positive and monotone on positive numbers. -/
theorem C82_relevance (pow : K → K → K) (sqrt : K → K) (ε blo bhi : K) (hε : 0 < ε) (distances : List K) (lo hi : K)
    (hr : IsRange distances lo hi) (hb : ∀ d ∈ distances, blo ≤ d ∧ d ≤ bhi) (power c : K) (hc : 0 < c)
    (hpos : ∀ a, 0 < a → 0 < pow a power) (hmono : ∀ a b, 0 < a → a ≤ b → pow a power ≤ pow b power)
    (d d' : K) (hd : d ≤ d') :
    0 < scaleOf (exact pow sqrt ε blo bhi) (distanceRange (exact pow sqrt ε blo bhi) distances) power c d' ∧
    scaleOf (exact pow sqrt ε blo bhi) (distanceRange (exact pow sqrt ε blo bhi) distances) power c d'
      ≤ scaleOf (exact pow sqrt ε blo bhi) (distanceRange (exact pow sqrt ε blo bhi) distances) power c d := by
  rw [range_exact pow sqrt ε blo bhi lo hi distances hr hb]
  change 0 < pow (relevance ε lo hi d') power * c ∧ pow (relevance ε lo hi d') power * c ≤ pow (relevance ε lo hi d) power * c
  have h1 : 0 < relevance ε lo hi d' := by
    unfold relevance
    have := le_max_right ((hi - d') / max (hi - lo) ε) 0
    linarith
  have h2 : relevance ε lo hi d' ≤ relevance ε lo hi d := by
    unfold relevance
    have hm : 0 < max (hi - lo) ε := lt_of_lt_of_le hε (le_max_right _ _)
    have : (hi - d') / max (hi - lo) ε ≤ (hi - d) / max (hi - lo) ε := by
      apply div_le_div_of_nonneg_right _ hm.le
      linarith
    have := max_le_max_right 0 this
    linarith
  exact ⟨mul_pos (hpos _ h1) hc, mul_le_mul_of_nonneg_right (hmono _ _ h1 h2) hc.le⟩

/-! ## Disagreements -/

/-- **Disagreement.** `eta` is documented as a ridge regularization, but does not influence the selection. -/
theorem C82_eta_ignored (pow : K → K → K) (sqrt : K → K) (ε blo bhi : K) (hsq : ∀ a, 0 < a → sqrt a ≠ 0)
    (rows : List (List K)) (distances query : List K) (hq : query ≠ []) (hd : distances.length = rows.length)
    (hdim : ∀ r ∈ rows, r.length = query.length) (lo hi : K) (hr : IsRange distances lo hi)
    (hb : ∀ d ∈ distances, blo ≤ d ∧ d ≤ bhi) (k : Nat) (power eta eta' : K) :
    determinantDiversity (exact pow sqrt ε blo bhi) rows query.length distances query k ⟨power, eta⟩
      = determinantDiversity (exact pow sqrt ε blo bhi) rows query.length distances query k ⟨power, eta'⟩ := by
  obtain ⟨a, a1, a2, a3, a4, a5⟩ := C82_greedy pow sqrt ε blo bhi hsq rows distances query hq hd hdim lo hi hr hb k ⟨power, eta⟩
  obtain ⟨b, b1, b2, b3, b4, b5⟩ := C82_greedy pow sqrt ε blo bhi hsq rows distances query hq hd hdim lo hi hr hb k ⟨power, eta'⟩
  rw [a1, b1, greedy_unique _ _ a b (by omega) a3 b3 a4 b4 a5 b5]

/-- **Disagreement.** The similarity of the closest candidate is documented to be at most 1; it is more. -/
theorem C82_similarity_above_one (pow : K → K → K) (sqrt : K → K) (ε blo bhi : K) (hε : 0 < ε) (lo hi : K)
    (hspan : ε ≤ hi - lo) : 1 < similarity (exact pow sqrt ε blo bhi) lo ⟨lo, hi⟩ := by
  change 1 < max ((hi - lo) / max (hi - lo) ε) 0 + ε
  have h0 : hi - lo ≠ 0 := (lt_of_lt_of_le hε hspan).ne'
  rw [max_eq_left hspan, div_self h0, max_eq_left zero_le_one]
  linarith

end

/-- The exact arithmetic of the examples: `powf` with exponent 1, `sqrt` on 0 and 1. -/
def rat : Arith Rat := exact (fun x _ => x) (fun x => x) (1 / 8388608) (-100) 100

/-- Three candidates at the same distance: two in the same direction, one orthogonal but shorter. -/
def demoRows : List (List Rat) := [[83886080, 0], [75497472, 0], [0, 41943040]]

/-- The scaled vectors of these candidates. -/
def demoScaled : Nat → List Rat := scaled (fun x _ => x) (1 / 8388608) 1 1 1 demoRows [1, 1, 1]

/-- **Disagreement.** The selection is documented to be greedy for `det (X Xᵀ + eta I)`; with `eta = 100` the
second row selected is not the one that maximizes it. -/
theorem C82_ridge_false :
    determinantDiversity rat demoRows 2 [1, 1, 1] [1, 0] 2 ⟨1, 100⟩ = some (.ok [0, 2]) ∧
    (gram demoScaled [0, 2] + (100 : Rat) • (1 : Matrix _ _ Rat)).det
      < (gram demoScaled [0, 1] + (100 : Rat) • (1 : Matrix _ _ Rat)).det := by
  refine ⟨by decide +kernel, ?_⟩
  have h0 : demoScaled 0 = [10, 0] := by decide +kernel
  have h1 : demoScaled 1 = [9, 0] := by decide +kernel
  have h2 : demoScaled 2 = [0, 5] := by decide +kernel
  have e1 : (gram demoScaled [0, 2] + (100 : Rat) • (1 : Matrix _ _ Rat)).det = 25000 := by
    change Matrix.det (n := Fin 2) _ = _
    rw [Matrix.det_fin_two]
    simp [gram, h0, h2, inner]
    norm_num
  have e2 : (gram demoScaled [0, 1] + (100 : Rat) • (1 : Matrix _ _ Rat)).det = 28100 := by
    change Matrix.det (n := Fin 2) _ = _
    rw [Matrix.det_fin_two]
    simp [gram, h0, h1, inner]
    norm_num
  rw [e1, e2]
  norm_num

/-- Exact arithmetic with a NaN (`none`), which `min` and `max` ignore and which compares with nothing. -/
def nan : Arith (Option Rat) where
  zero := some 0
  one := some 1
  epsilon := some (1 / 8388608)
  posInf := some 100
  negInf := some (-100)
  add a b := a.bind fun a => b.map (a + ·)
  sub a b := a.bind fun a => b.map (a - ·)
  mul a b := a.bind fun a => b.map (a * ·)
  div a b := a.bind fun a => b.map (a / ·)
  min a b := match a, b with | some a, some b => some (min a b) | some a, none => some a | none, b => b
  max a b := match a, b with | some a, some b => some (max a b) | some a, none => some a | none, b => b
  pow a _ := a
  sqrt a := a
  dot x y := (List.zipWith (fun a b => a.bind fun a => b.map (a * ·)) x y).foldl (fun a b => a.bind fun a => b.map (a + ·)) (some 0)
  cmp a b := a.bind fun a => b.map fun b => if a < b then .lt else if b < a then .gt else .eq
  finite a := a.isSome

/-- **Disagreement.** A comment promises that with NaN norms the first comparable candidate is picked; with
norms 25, NaN and 1 the pick is the last and least one. -/
theorem C82_nan_false :
    determinantDiversity nan [[some 5], [none], [some 1]] 1 [some 1, some 1, some 1] [some 1] 1 ⟨some 1, some 0⟩
      = some (.ok [2]) := by decide +kernel

/-- The parameters are accepted exactly when the power is finite and positive and eta is finite and not negative; a bad power
is reported first. -/
theorem C82_params {K : Type} (A : Arith K) (power eta : K) :
    (Params.new A power eta = .ok ⟨power, eta⟩ ↔
      (A.finite power = true ∧ A.le power A.zero = false) ∧ A.finite eta = true ∧ A.lt eta A.zero = false) ∧
    (Params.new A power eta = .error .invalidPower ↔ ¬ (A.finite power = true ∧ A.le power A.zero = false)) ∧
    ((A.finite power = true ∧ A.le power A.zero = false) → ¬ (A.finite eta = true ∧ A.lt eta A.zero = false) →
      Params.new A power eta = .error .invalidEta) := by
  unfold Params.new
  cases A.finite power <;> cases A.le power A.zero <;> cases A.finite eta <;> cases A.lt eta A.zero <;> simp

/-! ## Non-vacuity -/

/-- The hypotheses of the determinant theorem are met: a non-trivial selection of three rows. -/
example : ∃ sel, determinantDiversity rat demoRows 2 [1, 2, 3] [1, 0] 3 ⟨1, 1⟩ = some (.ok sel) ∧
    sel.length = 3 ∧ sel.Nodup ∧ (∀ i ∈ sel, i < 3) ∧
    IsGreedy (scaled (fun x _ => x) (1 / 8388608) 1 1 3 demoRows [1, 2, 3]) 3 sel :=
  C82_greedy (fun x _ => x) (fun x => x) (1 / 8388608) (-100) 100 (fun _ h => h.ne') demoRows [1, 2, 3] [1, 0] (by decide)
    (by decide) (by decide +kernel) 1 3 ⟨by decide, by decide, by decide +kernel, by decide +kernel⟩ (by decide +kernel) 3 ⟨1, 1⟩

example : determinantDiversity rat demoRows 2 [1, 2, 3] [1, 0] 3 ⟨1, 1⟩ = some (.ok [0, 2, 1]) := by decide +kernel

/-- Equal rows: the second copy comes last. -/
example : determinantDiversity rat [[3, 4], [3, 4], [1, 0], [0, 1]] 2 [1, 1, 1, 1] [1, 0] 4 ⟨1, 0⟩
    = some (.ok [1, 2, 3, 0]) := by decide +kernel

example : postProcess rat (fun i => demoRows[i]?) [1, 0] ⟨1, 0⟩ [(2, 1), (0, 5), (1, 2)]
    = some (.ok [(1, 2), (2, 1), (0, 5)]) := by decide +kernel

example : Params.new rat 1 0 = .ok ⟨1, 0⟩ ∧ Params.new rat 0 1 = .error .invalidPower ∧
    Params.new rat 1 (-1) = .error .invalidEta ∧ Params.new nan none (some 1) = .error .invalidPower := by decide +kernel

end Verif.Diversity
