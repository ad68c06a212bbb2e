import Verif.Search.HopLemmas
import Verif.Search.FilterProps

/-!
# C66: multi-hop filtered search

`ok` is the filter, `order` any function satisfying the contract of `sort_unstable_by` on distances
(`IsOrder`), `half` half of the maximum degree, `stop` the answers of `terminate_early`.

`computed` logs the distance computations, `expanded` the candidates taken from the queue, `hopped` the
rejected vertices whose adjacency lists were read by the second hop.
-/

namespace Verif.Search

open Verif.Queue

variable {I D : Type} [DecidableEq I] [LinearOrder D]

/-- Specification: what the multi-hop search can find. Every vertex found is a start point, an accepted
neighbour of a vertex found, or an accepted neighbour of a rejected neighbour of a vertex found. -/
inductive HopReach (adj : I → List I) (ok : I → Bool) (starts : List I) : I → Prop
  | start {x : I} (h : x ∈ starts) : HopReach adj ok starts x
  | direct {x y : I} (h : HopReach adj ok starts x) (e : y ∈ adj x) (a : ok y = true) :
      HopReach adj ok starts y
  | via {x z y : I} (h : HopReach adj ok starts x) (e : z ∈ adj x) (r : ok z = false) (e' : y ∈ adj z)
      (a : ok y = true) : HopReach adj ok starts y

theorem HopReach.reach {adj : I → List I} {ok : I → Bool} {starts : List I} {x : I}
    (h : HopReach adj ok starts x) : Reach adj starts x := by
  induction h with
  | start h => exact .start h
  | direct _ e _ ih => exact .step ih e
  | via _ e _ e' _ ih => exact .step (.step ih e) e'

theorem hop_iter (G : Graph I D) {R : I → Prop} {L : Nat} {ok : I → Bool} {starts : List I} {roomy : Prop}
    {s : HopSt I D} (h : HopInv G R L ok starts roomy s) :
    s.scratch.best.iter = bestOf L (s.fed.map fun i => (i, G.dist i)) := by
  obtain ⟨q1, q2, q3, q4⟩ := h.q
  rw [iter_eq_contents _ h.inv (by rw [q2, q3]), q4]

theorem hop_iter_mem (G : Graph I D) {R : I → Prop} {L : Nat} {ok : I → Bool} {starts : List I} {roomy : Prop}
    {s : HopSt I D} (h : HopInv G R L ok starts roomy s) (x : I × D) (hx : x ∈ s.scratch.best.iter) :
    x.1 ∈ s.fed ∧ G.dist x.1 = some x.2 := by
  rw [hop_iter G h] at hx
  obtain ⟨-, -, rej, m3, -⟩ := C01_bestOf_meaning L (s.fed.map fun i => (i, G.dist i))
  exact (comparable_map G _ x.1 x.2).mp (m3.mem_iff.mp (List.mem_append_left _ hx))

theorem hop_iter_nodup (G : Graph I D) {R : I → Prop} {L : Nat} {ok : I → Bool} {starts : List I} {roomy : Prop}
    {s : HopSt I D} (h : HopInv G R L ok starts roomy s) : (s.scratch.best.iter.map (·.1)).Nodup := by
  obtain ⟨q1, q2, q3, q4⟩ := h.q
  rw [iter_eq_contents _ h.inv (by rw [q2, q3])]
  have := h.core.ids_nodup
  unfold Queue.contents
  simpa [Function.comp_def] using this

/-- **C66, soundness.** On every finite graph, for every filter, list size, beam width and early-stop
behaviour, provided the sort of the rejected neighbours never panics: the search ends without panic; no
distance is computed twice and no adjacency list is read twice, be it for an ordinary expansion or for
a second hop; `hops` counts all these reads and `cmps` the distance computations other than those to
start points; the candidates handed to post-processing are at most `l`, sorted by distance, distinct,
all accepted by the filter, reachable, and carry their true distances. -/
theorem C66_multihop_sound (pad : D) (G : Graph I D) (ok : I → Bool) (V starts : List I)
    (l beam half : Nat) (order : List I → Option (List I)) (hord : IsOrder G order) (stop : Nat → Bool)
    (hG : FiniteGraph V G.adj starts) (hn : starts.Nodup) (hl : 1 ≤ l) (hb : 1 ≤ beam)
    (fuel : Nat) (hf : V.length < fuel) (hnp : ∀ js, order js ≠ none) :
    ∃ s, hopTraverse pad G ok starts l beam half order stop fuel = some s ∧
      s.scratch.computed.Nodup ∧ (s.scratch.expanded ++ s.hopped).Nodup ∧
      (∀ x ∈ s.scratch.expanded ++ s.hopped, x ∈ s.scratch.computed) ∧
      (∀ x ∈ s.scratch.computed, Reach G.adj starts x) ∧
      s.scratch.cmps + starts.length = s.scratch.computed.length ∧
      s.scratch.hops = (s.scratch.expanded ++ s.hopped).length ∧
      (hopOutput l s).length ≤ l ∧ (hopOutput l s).Pairwise (fun a b => a.2 ≤ b.2) ∧
      ((hopOutput l s).map (·.1)).Nodup ∧
      ∀ x ∈ hopOutput l s, ok x.1 = true ∧ Reach G.adj starts x.1 ∧ G.dist x.1 = some x.2 ∧
        x.1 ∈ s.scratch.computed := by
  rcases hop_spec pad G (R := Reach G.adj starts) ok starts (fun x y hx _ he => .step hx he)
    (fun x y hx _ he _ => .step hx he) V (reach_mem hG) (fun x hx => .start hx) hn l beam half hl hb False (fun h => h.elim) order hord stop fuel hf with
    ⟨js, -, h⟩ | ⟨s, h1, h2, -⟩
  · exact absurd h (hnp js)
  have hR : ∀ x ∈ s.scratch.computed, Reach G.adj starts x := fun x hx =>
    h2.core.reach x (by rw [h2.vis]; exact hx)
  refine ⟨s, h1, by rw [← h2.vis]; exact h2.core.nodup, ?_, ?_, hR, h2.cmps,
    by rw [List.length_append]; exact h2.hops, List.length_take_le _ _, ?_, ?_, ?_⟩
  · rw [List.nodup_append]
    refine ⟨h2.exp, h2.hop_nodup, ?_⟩
    intro a ha b hb hab
    subst hab
    obtain ⟨-, k1, k2⟩ := h2.hop a hb
    rcases (h2.fed_ok a (h2.exp_fed a ha)).2 with h | h
    · rw [k1] at h; cases h
    · exact k2 h
  · intro x hx
    rcases List.mem_append.mp hx with h | h
    · exact (h2.fed_ok x (h2.exp_fed x h)).1
    · exact (h2.hop x h).1
  · unfold hopOutput
    refine List.Pairwise.sublist ((List.take_sublist _ _).trans List.filter_sublist) ?_
    rw [hop_iter G h2]
    exact (C01_bestOf_meaning _ _).1
  · exact (hop_iter_nodup G h2).sublist (((List.take_sublist _ _).trans List.filter_sublist).map _)
  · intro x hx
    unfold hopOutput at hx
    have hx' := List.mem_of_mem_take hx
    rw [List.mem_filter, decide_eq_true_eq] at hx'
    obtain ⟨k1, k2⟩ := hop_iter_mem G h2 x hx'.1
    obtain ⟨k3, k4⟩ := h2.fed_ok _ k1
    refine ⟨?_, hR _ k3, k2, k3⟩
    rcases k4 with h | h
    · exact h
    · have := hx'.2
      rw [h2.rej, List.mem_filter] at this
      cases hok : ok x.1 with
      | true => rfl
      | false => exact absurd ⟨h, by simp [hok]⟩ this

/-- **C66, optimality.** The candidates handed to post-processing are the best `l` of all accepted
vertices evaluated: an accepted vertex whose distance was computed (and is not NaN) is left out only if
there are `l` candidates, all at least as close. Rejected start points do not take places away. -/
theorem C66_multihop_best_accepted (pad : D) (G : Graph I D) (ok : I → Bool) (V starts : List I)
    (l beam half : Nat) (order : List I → Option (List I)) (hord : IsOrder G order) (stop : Nat → Bool)
    (hG : FiniteGraph V G.adj starts) (hn : starts.Nodup) (hl : 1 ≤ l) (hb : 1 ≤ beam)
    (fuel : Nat) (hf : V.length < fuel) (s : HopSt I D)
    (hs : hopTraverse pad G ok starts l beam half order stop fuel = some s)
    (hnp : ∀ js, (∀ x ∈ js, Reach G.adj starts x ∧ ok x = false) → order js ≠ none)
    (y : I) (e : D) (hy : y ∈ s.scratch.computed) (hoy : ok y = true) (hd : G.dist y = some e)
    (hout : y ∉ (hopOutput l s).map (·.1)) :
    (hopOutput l s).length = l ∧ ∀ x ∈ hopOutput l s, x.2 ≤ e := by
  rcases hop_spec pad G (R := Reach G.adj starts) ok starts (fun x y hx _ he => .step hx he)
    (fun x y hx _ he _ => .step hx he) V (reach_mem hG) (fun x hx => .start hx) hn l beam half hl hb False (fun h => h.elim) order hord stop fuel hf with
    ⟨js, h', h⟩ | ⟨s', h1, h2, -⟩
  · exact absurd h (hnp js h')
  obtain rfl : s = s' := Option.some.inj (hs.symm.trans h1)
  obtain ⟨m1, m2, rej, m3, m4⟩ := C01_bestOf_meaning (l + starts.length) (s.fed.map fun i => (i, G.dist i))
  rw [← hop_iter G h2] at m1 m2 m3 m4
  set it := s.scratch.best.iter with hit
  have hyc : (y, e) ∈ it ++ rej := m3.mem_iff.mpr ((comparable_map G _ y e).mpr ⟨h2.fed_all y hy hoy, hd⟩)
  set fl := it.filter fun x => decide (x.1 ∉ s.rejected) with hfl
  have hflen : it.length ≤ fl.length + starts.length := by
    have h3 : it.length = fl.length + (it.filter fun x => decide (x.1 ∈ s.rejected)).length := by
      rw [hfl, ← List.countP_eq_length_filter, ← List.countP_eq_length_filter,
        List.length_eq_countP_add_countP (fun x => decide (x.1 ∉ s.rejected))]
      congr 2
      funext x
      simp
    have h4 : (it.filter fun x => decide (x.1 ∈ s.rejected)).length ≤ starts.length := by
      rw [← List.length_map (f := (·.1))]
      refine (List.subperm_of_subset ((hop_iter_nodup G h2).sublist (List.filter_sublist.map _)) ?_).length_le
      intro a ha
      obtain ⟨x, hx, rfl⟩ := List.mem_map.mp ha
      rw [List.mem_filter, decide_eq_true_eq, h2.rej, List.mem_filter] at hx
      exact hx.2.1
    omega
  have hyrej : y ∉ s.rejected := by
    rw [h2.rej, List.mem_filter]
    rintro ⟨-, h⟩
    simp [hoy] at h
  have hflsort : fl.Pairwise (fun a b => a.2 ≤ b.2) := m1.sublist List.filter_sublist
  have hO : hopOutput l s = fl.take l := rfl
  rw [hO] at hout ⊢
  rcases List.mem_append.mp hyc with h | h
  · have hyf : (y, e) ∈ fl := List.mem_filter.mpr ⟨h, by simpa using hyrej⟩
    rw [← List.take_append_drop l fl] at hyf
    rcases List.mem_append.mp hyf with h' | h'
    · exact absurd (List.mem_map.mpr ⟨_, h', rfl⟩) hout
    · have : 0 < (fl.drop l).length := List.length_pos_of_mem h'
      rw [List.length_drop] at this
      refine ⟨by rw [List.length_take]; omega, ?_⟩
      intro x hx
      rw [← List.take_append_drop l fl] at hflsort
      exact (List.pairwise_append.mp hflsort).2.2 x hx _ h'
  · have hrl : 0 < rej.length := List.length_pos_of_mem h
    have := m3.length_eq
    rw [List.length_append, m2] at this
    have hle : it.length = l + starts.length := by rw [m2]; omega
    refine ⟨by rw [List.length_take]; omega, ?_⟩
    intro x hx
    exact m4 x (List.mem_of_mem_filter (List.mem_of_mem_take hx)) _ h

/-- **C66, exactness.** If the adjacency lists contain at most `K` rejected vertices with
`beam · K ≤ half`, nothing reachable has a NaN distance, the search list has room for everything and
the search is not stopped early, it returns exactly the accepted vertices reachable from the start
points with at most one rejected vertex between two found ones, in order of distance. -/
theorem C66_multihop_exact (pad : D) (G : Graph I D) (ok : I → Bool) (V starts : List I)
    (l beam half K : Nat) (order : List I → Option (List I)) (hord : IsOrder G order)
    (hG : FiniteGraph V G.adj starts) (hn : starts.Nodup) (hl : 1 ≤ l) (hb : 1 ≤ beam)
    (fuel : Nat) (hf : V.length < fuel)
    (hK : ∀ x, ((G.adj x).filter fun i => !ok i).length ≤ K) (hhalf : beam * K ≤ half)
    (hd : ∀ x, Reach G.adj starts x → G.dist x ≠ none)
    (found : List I) (hfound : ∀ x, HopReach G.adj ok starts x → ok x = true → x ∈ found)
    (hlen : found.length ≤ l) :
    ∃ s, hopTraverse pad G ok starts l beam half order (fun _ => false) fuel = some s ∧
      (hopOutput l s).Pairwise (fun a b => a.2 ≤ b.2) ∧ ((hopOutput l s).map (·.1)).Nodup ∧
      ∀ i d, (i, d) ∈ hopOutput l s ↔ HopReach G.adj ok starts i ∧ ok i = true ∧ G.dist i = some d := by
  have hnp : ∀ js, (∀ x ∈ js, Reach G.adj starts x ∧ ok x = false) → order js ≠ none := by
    intro js hjs h
    obtain ⟨l', h', -⟩ := hord.sorted js (fun x hx => hd x (hjs x hx).1)
    rw [h] at h'; cases h'
  set R : I → Prop := fun x => HopReach G.adj ok starts x ∨
    (ok x = false ∧ ∃ w, HopReach G.adj ok starts w ∧ x ∈ G.adj w) with hRdef
  have hRR : ∀ x, R x → Reach G.adj starts x := by
    rintro x (h | ⟨-, w, h, e⟩)
    · exact h.reach
    · exact .step h.reach e
  have hR1 : ∀ x y, R x → (ok x = true ∨ x ∈ starts) → y ∈ G.adj x → R y := by
    intro x y hx hox e
    have hx' : HopReach G.adj ok starts x := by
      rcases hox with h | h
      · rcases hx with hx | ⟨hx, -⟩
        · exact hx
        · rw [h] at hx; cases hx
      · exact .start h
    cases hoy : ok y with
    | true => exact Or.inl (.direct hx' e hoy)
    | false => exact Or.inr ⟨hoy, x, hx', e⟩
  have hR2 : ∀ x y, R x → ok x = false → y ∈ G.adj x → ok y = true → R y := by
    rintro x y (hx | ⟨-, w, hw, e⟩) hox e' hoy
    · exact Or.inl (.direct hx e' hoy)
    · exact Or.inl (.via hw e hox e' hoy)
  rcases hop_spec pad G (R := R) ok starts hR1 hR2 V (fun x hx => reach_mem hG x (hRR x hx))
    (fun x hx => Or.inl (.start hx)) hn l beam half hl hb True (fun _ => ⟨K, hK, hhalf⟩) order hord
    (fun _ => false) fuel hf with ⟨js, h', h⟩ | ⟨s, h1, h2, h3⟩
  · exact absurd h (hnp js fun x hx => ⟨hRR x (h' x hx).1, (h' x hx).2⟩)
  have hnv : s.scratch.best.hasNotVisited = false := by simpa using h3
  have hRc : ∀ x ∈ s.scratch.computed, R x := fun x hx => h2.core.reach x (by rw [h2.vis]; exact hx)
  have hfedR : ∀ x ∈ s.fed, HopReach G.adj ok starts x := by
    intro x hx
    obtain ⟨k1, k2⟩ := h2.fed_ok x hx
    rcases k2 with k2 | k2
    · rcases hRc x k1 with h | ⟨h, -⟩
      · exact h
      · rw [k2] at h; cases h
    · exact .start k2
  have hfl : s.fed.length ≤ l + starts.length := by
    have hsplit : s.fed.length = (s.fed.filter ok).length + (s.fed.filter fun i => !ok i).length := by
      rw [← List.countP_eq_length_filter, ← List.countP_eq_length_filter,
        List.length_eq_countP_add_countP ok]
      congr 2
      funext x
      simp
    have hA : (s.fed.filter ok).length ≤ found.length := by
      refine (List.subperm_of_subset (h2.fed_nodup.filter _) ?_).length_le
      intro x hx
      rw [List.mem_filter] at hx
      exact hfound x (hfedR x hx.1) hx.2
    have hB : (s.fed.filter fun i => !ok i).length ≤ starts.length := by
      refine (List.subperm_of_subset (h2.fed_nodup.filter _) ?_).length_le
      intro x hx
      rw [List.mem_filter] at hx
      rcases (h2.fed_ok x hx.1).2 with h | h
      · simp [h] at hx
      · exact h
    omega
  have hfd : ∀ x ∈ s.fed, G.dist x ≠ none := fun x hx => hd x (hfedR x hx).reach
  obtain ⟨m1, m2, rej, m3, m4⟩ := C01_bestOf_meaning (l + starts.length) (s.fed.map fun i => (i, G.dist i))
  rw [← hop_iter G h2] at m1 m2 m3 m4
  have hclen : (comparable (s.fed.map fun i => (i, G.dist i))).length ≤ s.fed.length := by
    rw [← List.length_map (f := (·.1)), comparable_map_ids]; exact List.length_filter_le _ _
  have hrej : rej = [] := by
    have := m3.length_eq
    rw [List.length_append, m2] at this
    have : rej.length = 0 := by omega
    exact List.length_eq_zero_iff.mp this
  rw [hrej, List.append_nil] at m3
  have hmem : ∀ i d, (i, d) ∈ s.scratch.best.iter ↔ i ∈ s.fed ∧ G.dist i = some d := by
    intro i d; rw [m3.mem_iff, comparable_map]
  have hexp : ∀ x ∈ s.fed, x ∈ s.scratch.expanded := by
    intro x hx
    obtain ⟨d, hxd⟩ := Option.ne_none_iff_exists'.mp (hfd x hx)
    have := (hmem x d).mpr ⟨hx, hxd⟩
    rw [iter_eq_contents _ h2.inv (by rw [h2.q.2.1, h2.q.2.2.1])] at this
    unfold Queue.contents at this
    obtain ⟨e, he, hee⟩ := List.mem_map.mp this
    simp only [Prod.mk.injEq] at hee
    rw [← hee.1, ← h2.core.flag e he]
    obtain ⟨i, hi, rfl⟩ := List.getElem_of_mem he
    refine h2.inv.before i hi ?_
    unfold Queue.hasNotVisited at hnv
    simp only [decide_eq_false_iff_not] at hnv
    have := h2.inv.size_le
    have e : s.scratch.best.entries.length = s.scratch.best.size := rfl
    have q2 := h2.q.2.1
    have q3 := h2.q.2.2.1
    omega
  have hall : ∀ x, HopReach G.adj ok starts x → x ∈ s.fed := by
    intro x hx
    induction hx with
    | start h => exact h2.fed_starts _ h
    | direct _ e a ih =>
      exact h2.fed_all _ (by rw [← h2.vis]; exact h2.core.exp_closed _ (hexp _ ih) _ e) a
    | @via x z y _ e r e' a ih =>
      have hz : z ∈ s.scratch.computed := by
        rw [← h2.vis]; exact h2.core.exp_closed _ (hexp _ ih) _ e
      refine h2.fed_all _ ?_ a
      by_cases hzs : z ∈ starts
      · rw [← h2.vis]; exact h2.core.exp_closed _ (hexp _ (h2.fed_starts _ hzs)) _ e'
      · exact h2.hop_closed z (h2.hop_all trivial z hz r hzs) y e' a
  set fl := s.scratch.best.iter.filter fun x => decide (x.1 ∉ s.rejected) with hflt
  have hflm : ∀ i d, (i, d) ∈ fl ↔ HopReach G.adj ok starts i ∧ ok i = true ∧ G.dist i = some d := by
    intro i d
    rw [hflt, List.mem_filter, hmem, decide_eq_true_eq, h2.rej, List.mem_filter]
    constructor
    · rintro ⟨⟨a, b⟩, c⟩
      refine ⟨hfedR i a, ?_, b⟩
      cases hok : ok i with
      | true => rfl
      | false =>
        rcases (h2.fed_ok i a).2 with h | h
        · rw [hok] at h; cases h
        · exact absurd ⟨h, by simp [hok]⟩ c
    · rintro ⟨a, b, c⟩
      exact ⟨⟨hall i a, c⟩, fun h => by simp [b] at h⟩
  have hnd : (fl.map (·.1)).Nodup := (hop_iter_nodup G h2).sublist (List.filter_sublist.map _)
  have hlen' : fl.length ≤ l := by
    rw [← List.length_map (f := (·.1))]
    refine le_trans (List.subperm_of_subset hnd ?_).length_le hlen
    intro a ha
    obtain ⟨x, hx, rfl⟩ := List.mem_map.mp ha
    obtain ⟨k1, k2, -⟩ := (hflm x.1 x.2).mp hx
    exact hfound _ k1 k2
  have hO : hopOutput l s = fl := by
    show fl.take l = fl
    exact List.take_of_length_le hlen'
  refine ⟨s, h1, ?_, ?_, ?_⟩
  · rw [hO]; exact m1.sublist List.filter_sublist
  · rw [hO]; exact hnd
  · rw [hO]; exact hflm

/-- **C66, the second hop prefers close vertices.** The rejected neighbours expanded in a round are the
`half` closest of that round. -/
theorem C66_second_hop_closest (G : Graph I D) (order : List I → Option (List I)) (hord : IsOrder G order)
    (half : Nat) (js cands : List I) (hd : ∀ x ∈ js, G.dist x ≠ none) (h : order js = some cands) :
    (cands.take half).length = min half js.length ∧
    ∀ x ∈ cands.take half, x ∈ js ∧ ∀ y ∈ js, y ∉ cands.take half → ∀ d e, G.dist x = some d →
      G.dist y = some e → d ≤ e := by
  have hp := hord.perm _ _ h
  obtain ⟨l', h1, h2⟩ := hord.sorted js hd
  obtain rfl : cands = l' := Option.some.inj (h.symm.trans h1)
  refine ⟨by rw [List.length_take, hp.length_eq], ?_⟩
  intro x hx
  refine ⟨hp.mem_iff.mp (List.mem_of_mem_take hx), ?_⟩
  intro y hy hny
  have hy' := hp.mem_iff.mpr hy
  rw [← List.take_append_drop half cands] at hy' h2
  rcases List.mem_append.mp hy' with h | h
  · exact absurd h hny
  · exact (List.pairwise_append.mp h2).2.2 x hx y h

/-! ## Concrete cases and departures -/

/-- A sort satisfying the contract. -/
def demoOrder (G : Graph Nat Int) (l : List Nat) : Option (List Nat) :=
  some (l.insertionSort fun a b => (G.dist a).getD 0 ≤ (G.dist b).getD 0)

theorem demoOrder_isOrder (G : Graph Nat Int) : IsOrder G (demoOrder G) := by
  constructor
  · intro l l' h
    cases h; exact List.perm_insertionSort _ _
  · intro l hl
    refine ⟨_, rfl, ?_⟩
    have ht : Std.Total (fun a b : Nat => (G.dist a).getD 0 ≤ (G.dist b).getD 0) := ⟨fun a b => le_total _ _⟩
    have htr : IsTrans Nat (fun a b => (G.dist a).getD 0 ≤ (G.dist b).getD 0) := ⟨fun a b c => le_trans⟩
    refine (List.pairwise_insertionSort _ _).imp ?_
    intro a b hab d e hd he
    rw [hd, he] at hab
    exact hab

/-- Start 0, rejected; its neighbours 1, 2, 3 are rejected, 4 (behind 3) and 6 (behind 2) are accepted, 5
is two rejected vertices away. -/
def hopG : Graph Nat Int where
  adj := fun | 0 => [1, 2, 3] | 1 => [0] | 2 => [1, 6] | 3 => [4] | 4 => [1] | 6 => [7] | 7 => [5] | _ => []
  dist := fun n => if n ≤ 7 then some (7 - n) else none

def hopOk (n : Nat) : Bool := n == 4 || n == 5 || n == 6

theorem hopG_finite : FiniteGraph [0, 1, 2, 3, 4, 5, 6, 7] hopG.adj [0] := by
  constructor <;> decide

/-- With room for all rejected candidates everything is found, across one rejected vertex at a time. -/
example : (hopTraverse 0 hopG hopOk [0] 4 1 3 (demoOrder hopG) (fun _ => false) 9).map (fun s =>
    (hopOutput 4 s, s.scratch.cmps, s.scratch.hops, s.hopped)) =
    some ([(6, 1), (5, 2), (4, 3)], 7, 8, [3, 2, 1, 7]) := by decide +kernel

/-- **Disagreement.** Rejected neighbours beyond half of the maximum degree are lost for good: they are
marked visited and never expanded again. With room for one of three, vertex 6 — an accepted vertex, the
closest of all, one rejected vertex away from the start — is not returned although the search list has space and the search runs to the end. -/
theorem C66_truncated_candidates_lost :
    HopReach hopG.adj hopOk [0] 6 ∧ hopOk 6 = true ∧
    (hopTraverse 0 hopG hopOk [0] 4 1 1 (demoOrder hopG) (fun _ => false) 9).map (fun s =>
      (hopOutput 4 s, s.scratch.best.hasNotVisited)) = some ([(4, 3)], false) := by
  refine ⟨.via (x := 0) (z := 2) (.start (by decide)) (by decide) (by decide) (by decide) (by decide),
    by decide, ?_⟩
  decide +kernel

example := C66_multihop_sound 0 hopG hopOk [0, 1, 2, 3, 4, 5, 6, 7] [0] 4 1 1 (demoOrder hopG)
  (demoOrder_isOrder hopG) (fun _ => false) hopG_finite (by simp) (by omega) (by omega) 9 (by decide)
  (fun js h => by cases h)

example := C66_multihop_exact 0 hopG hopOk [0, 1, 2, 3, 4, 5, 6, 7] [0] 4 1 3 3 (demoOrder hopG)
  (demoOrder_isOrder hopG) hopG_finite (by simp) (by omega) (by omega) 9 (by decide)
  (fun x => by
    rcases x with _ | _ | _ | _ | _ | _ | _ | _ | x <;> first | decide | simp [hopG])
  (by decide)
  (fun x hx => by
    have := reach_mem hopG_finite x hx
    simp only [List.mem_cons, List.not_mem_nil, or_false] at this
    unfold hopG; rcases this with rfl | rfl | rfl | rfl | rfl | rfl | rfl | rfl <;> simp)
  [4, 5, 6] (fun x _ hx => by simp [hopOk] at hx ⊢; omega) (by decide)

/-- The hypotheses of `C66_multihop_best_accepted` are met by a search in which an accepted vertex is
left out. -/
example : ∃ s, hopTraverse 0 hopG hopOk [0] 1 1 3 (demoOrder hopG) (fun _ => false) 9 = some s ∧
    4 ∈ s.scratch.computed ∧ hopOk 4 = true ∧ hopG.dist 4 = some 3 ∧ 4 ∉ (hopOutput 1 s).map (·.1) ∧
    hopOutput 1 s = [(6, 1)] := by
  cases h : hopTraverse 0 hopG hopOk [0] 1 1 3 (demoOrder hopG) (fun _ => false) 9 with
  | none =>
    exact absurd h (by decide +kernel)
  | some s =>
    have : (hopTraverse 0 hopG hopOk [0] 1 1 3 (demoOrder hopG) (fun _ => false) 9).map (fun s =>
      (decide (4 ∈ s.scratch.computed), hopOutput 1 s)) = some (true, [(6, 1)]) := by decide +kernel
    rw [h] at this
    simp only [Option.map_some, Option.some.injEq, Prod.mk.injEq, decide_eq_true_eq] at this
    exact ⟨s, rfl, this.1, by decide, by decide, by rw [this.2]; decide, this.2⟩

example := C66_second_hop_closest hopG (demoOrder hopG) (demoOrder_isOrder hopG) 2 [1, 2, 3] [3, 2, 1]
  (by decide) (by decide +kernel)

end Verif.Search
