import Verif.Search.FilterLemmas

/-!
# C65: inline filtered search

`ok` is the filter, `srt` any function satisfying the contract of `sort_unstable_by` (`IsSort`), `stop`
the answers of `terminate_early`, `p` the parameters (list size `p.l`, beam width, optional adaptive
list size). Parameters are `Safe` if the adaptive scale factor is a number, at least 1, and small enough
for the list to be allocated.
-/

namespace Verif.Search

open Verif.Queue

variable {I D : Type} [DecidableEq I] [LinearOrder D]

theorem stable_true (pad : D) (G : Graph I D) : Stable pad G (fun _ _ => True) :=
  ⟨fun _ _ _ _ _ _ _ => trivial, fun _ _ _ _ _ _ _ _ => trivial⟩

theorem acceptedOf_ids (G : Graph I D) (ok : I → Bool) (cs : List I) :
    (acceptedOf G ok cs).map (·.1) = cs.filter ok := by
  simp [acceptedOf, Function.comp_def]

/-- **C65, soundness.** On every finite graph, for every filter, list size, beam width, early-stop
behaviour and safe adaptive setting: the traversal ends without panic; no distance is computed twice and
no vertex expanded twice; `hops` counts the expansions and `cmps` the distance computations other than
those to start points; whatever the final sort does, the results handed to post-processing are at most
`l`, distinct, all accepted by the filter, reachable, and carry their true distances. -/
theorem C65_inline_sound (pad : D) (G : Graph I D) (ok : I → Bool) (V starts : List I) (p : InlineParams)
    (stop : Nat → Bool) (srt : List (I × Option D) → Option (List (I × Option D))) (hs : IsSort srt)
    (hG : FiniteGraph V G.adj starts) (hn : starts.Nodup) (hp : p.Safe)
    (hl : 1 ≤ p.l) (hb : 1 ≤ p.beam) (fuel : Nat) (hf : V.length < fuel) :
    ∃ s, inlineTraverse pad G ok starts p stop fuel = some s ∧
      s.scratch.computed.Nodup ∧ s.scratch.expanded.Nodup ∧
      (∀ x ∈ s.scratch.expanded, x ∈ s.scratch.computed) ∧
      s.scratch.cmps + starts.length = s.scratch.computed.length ∧
      s.scratch.hops = s.scratch.expanded.length ∧
      ∀ t out, inlineSearch pad G ok starts p stop srt fuel = some (t, out) → t = s ∧
        out.length ≤ p.l ∧ (out.map (·.1)).Nodup ∧
        ∀ x ∈ out, ok x.1 = true ∧ Reach G.adj starts x.1 ∧ G.dist x.1 = x.2 ∧ x.1 ∈ s.scratch.computed := by
  obtain ⟨s, h1, h2, h3, h4⟩ := inline_spec pad G (stable_true pad G) ok starts p stop
    (R := Reach G.adj starts) (fun x y hx _ he => .step hx he) (fun x hx => .start hx) V
    (reach_mem hG) hn hp hl hb (fun _ _ _ _ _ _ _ => trivial) trivial fuel hf
  have hcn : s.scratch.computed.Nodup := by rw [← h2.vis]; exact h2.core.nodup
  refine ⟨s, h1, hcn, h2.exp, fun x hx => by rw [← h2.vis]; exact h2.core.exp_visited x hx, h2.cmps, h2.hops, ?_⟩
  intro t out ho
  unfold inlineSearch at ho
  rw [h1] at ho
  dsimp only at ho
  cases hsm : srt s.matched with
  | none => rw [hsm] at ho; simp at ho
  | some m =>
    rw [hsm] at ho
    simp only [Option.some.injEq, Prod.mk.injEq] at ho
    obtain ⟨rfl, rfl⟩ := ho
    have hperm := hs.perm _ _ hsm
    refine ⟨rfl, List.length_take_le _ _, ?_, ?_⟩
    · have : (m.map (·.1)).Nodup := by
        rw [(hperm.map _).nodup_iff, h2.matched, acceptedOf_ids]
        exact hcn.filter _
      exact this.sublist ((List.take_sublist _ _).map _)
    · intro x hx
      have hx' := hperm.mem_iff.mp (List.mem_of_mem_take hx)
      rw [h2.matched, mem_acceptedOf] at hx'
      exact ⟨hx'.2.1, h2.core.reach _ (by rw [h2.vis]; exact hx'.1), hx'.2.2, hx'.1⟩

/-- **C65, optimality.** If no accepted reachable vertex has a NaN distance, the search returns, in
order of distance, the best `l` of all accepted vertices it evaluated: their number is the smaller of
`l` and the number of accepted vertices evaluated, and an accepted evaluated vertex left out is at least
as far as every result. -/
theorem C65_inline_best_accepted (pad : D) (G : Graph I D) (ok : I → Bool) (V starts : List I)
    (p : InlineParams) (stop : Nat → Bool) (srt : List (I × Option D) → Option (List (I × Option D)))
    (hs : IsSort srt) (hG : FiniteGraph V G.adj starts) (hn : starts.Nodup) (hp : p.Safe)
    (hl : 1 ≤ p.l) (hb : 1 ≤ p.beam) (fuel : Nat) (hf : V.length < fuel)
    (hd : ∀ x, Reach G.adj starts x → ok x = true → G.dist x ≠ none) :
    ∃ s out, inlineSearch pad G ok starts p stop srt fuel = some (s, out) ∧
      out.Pairwise (fun a b => ∀ d e, a.2 = some d → b.2 = some e → d ≤ e) ∧
      out.length = min p.l (s.scratch.computed.filter ok).length ∧
      ∀ y, y ∈ s.scratch.computed → ok y = true → y ∉ out.map (·.1) →
        ∃ e, G.dist y = some e ∧ ∀ x ∈ out, ∃ d, x.2 = some d ∧ d ≤ e := by
  obtain ⟨s, h1, h2, h3, h4⟩ := inline_spec pad G (stable_true pad G) ok starts p stop
    (R := Reach G.adj starts) (fun x y hx _ he => .step hx he) (fun x hx => .start hx) V
    (reach_mem hG) hn hp hl hb (fun _ _ _ _ _ _ _ => trivial) trivial fuel hf
  have hcomp : ∀ x ∈ s.matched, x.2 ≠ none := by
    intro x hx
    rw [h2.matched, mem_acceptedOf] at hx
    rw [← hx.2.2]
    exact hd _ (h2.core.reach _ (by rw [h2.vis]; exact hx.1)) hx.2.1
  obtain ⟨m, m1, m2⟩ := hs.sorted _ hcomp
  have hperm := hs.perm _ _ m1
  refine ⟨s, m.take p.l, ?_, ?_, ?_, ?_⟩
  · unfold inlineSearch; rw [h1]; dsimp only; rw [m1]
  · exact m2.sublist (List.take_sublist _ _)
  · rw [List.length_take, hperm.length_eq, h2.matched]; simp [acceptedOf]
  · intro y hy hoky hnot
    have hmem : (y, G.dist y) ∈ m := hperm.mem_iff.mpr (by
      rw [h2.matched, mem_acceptedOf]; exact ⟨hy, hoky, rfl⟩)
    obtain ⟨e, he⟩ := Option.ne_none_iff_exists'.mp
      (hd y (h2.core.reach _ (by rw [h2.vis]; exact hy)) hoky)
    refine ⟨e, he, ?_⟩
    intro x hx
    have hxc := hcomp x (hperm.mem_iff.mp (List.mem_of_mem_take hx))
    obtain ⟨d, hxd⟩ := Option.ne_none_iff_exists'.mp hxc
    refine ⟨d, hxd, ?_⟩
    rw [← List.take_append_drop p.l m] at hmem m2
    rcases List.mem_append.mp hmem with h | h
    · exact absurd (List.mem_map.mpr ⟨_, h, rfl⟩) hnot
    · exact (List.pairwise_append.mp m2).2.2 x hx _ h d e hxd he

/-- **C65, exactness.** If nothing reachable has a NaN distance, the list size is at least the number
of reachable vertices and the search is not stopped early, it returns exactly the reachable vertices
accepted by the filter, in order of distance — with or without adaptive list size. -/
theorem C65_inline_exact (pad : D) (G : Graph I D) (ok : I → Bool) (V starts : List I)
    (p : InlineParams) (srt : List (I × Option D) → Option (List (I × Option D)))
    (hs : IsSort srt) (hG : FiniteGraph V G.adj starts) (hn : starts.Nodup) (hp : p.Safe)
    (hl : 1 ≤ p.l) (hb : 1 ≤ p.beam) (fuel : Nat) (hf : V.length < fuel)
    (reachable : List I) (hreach : ∀ x, x ∈ reachable ↔ Reach G.adj starts x)
    (hd : ∀ x ∈ reachable, G.dist x ≠ none) (hlen : reachable.length ≤ p.l) :
    ∃ s out, inlineSearch pad G ok starts p (fun _ => false) srt fuel = some (s, out) ∧
      out.Pairwise (fun a b => ∀ d e, a.2 = some d → b.2 = some e → d ≤ e) ∧ (out.map (·.1)).Nodup ∧
      ∀ i d, (i, some d) ∈ out ↔ Reach G.adj starts i ∧ ok i = true ∧ G.dist i = some d := by
  obtain ⟨s, h1, h2, h3, h4⟩ := inline_spec pad G (completeQ_stable pad G p.l) ok starts p (fun _ => false)
    (R := Reach G.adj starts) (fun x y hx _ he => .step hx he) (fun x hx => .start hx) V
    (reach_mem hG) hn hp hl hb (fun _ q cs n _ h hn => completeQ_reconfigure G p.l n q cs h hn)
    ⟨rfl, by simp [Queue.new], rfl, fun _ => by simp [Queue.new, Queue.contents, comparable]⟩ fuel hf
  have hnv : s.scratch.best.hasNotVisited = false := by simpa using h3
  have hcn : s.scratch.computed.Nodup := by rw [← h2.vis]; exact h2.core.nodup
  have hR : ∀ x ∈ s.scratch.computed, Reach G.adj starts x := fun x hx =>
    h2.core.reach x (by rw [h2.vis]; exact hx)
  have hclen : s.scratch.computed.length ≤ reachable.length :=
    (List.subperm_of_subset hcn fun x hx => (hreach x).mpr (hR x hx)).length_le
  obtain ⟨q1, q2, q3, q4⟩ := h2.q
  have hcc : (comparable (s.scratch.computed.map fun i => (i, G.dist i))).length ≤ p.l := by
    rw [← List.length_map (f := (·.1)), comparable_map_ids]
    exact le_trans (List.length_filter_le _ _) (le_trans hclen hlen)
  have hperm := q4 hcc
  have hexp : ∀ x ∈ s.scratch.computed, x ∈ s.scratch.expanded := by
    intro x hx
    obtain ⟨d, hxd⟩ := Option.ne_none_iff_exists'.mp (hd x ((hreach x).mpr (hR x hx)))
    have := hperm.mem_iff.mpr ((comparable_map G _ x d).mpr ⟨hx, hxd⟩)
    unfold Queue.contents at this
    obtain ⟨e, he, hee⟩ := List.mem_map.mp this
    simp only [Prod.mk.injEq] at hee
    rw [← hee.1, ← h2.core.flag e he]
    obtain ⟨i, hi, rfl⟩ := List.getElem_of_mem he
    refine h2.inv.before i hi ?_
    unfold Queue.hasNotVisited at hnv
    simp only [decide_eq_false_iff_not] at hnv
    have := h2.inv.size_le
    have e : s.scratch.best.entries.length = s.scratch.best.size := rfl
    omega
  have hall : ∀ x, Reach G.adj starts x → x ∈ s.scratch.computed := by
    intro x hx
    induction hx with
    | start hs => exact h2.starts_sub _ hs
    | step _ he ih => rw [← h2.vis]; exact h2.core.exp_closed _ (hexp _ ih) _ he
  have hcomp : ∀ x ∈ s.matched, x.2 ≠ none := by
    intro x hx
    rw [h2.matched, mem_acceptedOf] at hx
    rw [← hx.2.2]
    exact hd _ ((hreach _).mpr (hR _ hx.1))
  obtain ⟨m, m1, m2⟩ := hs.sorted _ hcomp
  have hpm := hs.perm _ _ m1
  have htake : m.take p.l = m := by
    apply List.take_of_length_le
    rw [hpm.length_eq, h2.matched]
    simp only [acceptedOf, List.length_map]
    exact le_trans (List.length_filter_le _ _) (le_trans hclen hlen)
  refine ⟨s, m, ?_, m2, ?_, ?_⟩
  · unfold inlineSearch; rw [h1]; dsimp only; rw [m1]; dsimp only; rw [htake]
  · rw [(hpm.map _).nodup_iff, h2.matched, acceptedOf_ids]; exact hcn.filter _
  · intro i d
    rw [hpm.mem_iff, h2.matched, mem_acceptedOf]
    constructor
    · rintro ⟨a, b, c⟩; exact ⟨hR i a, b, c⟩
    · rintro ⟨a, b, c⟩; exact ⟨hall i a, b, c⟩

/-- **C65, traversal.** Without adaptive list size the filter has no influence on the traversal: the
inline filtered search visits and expands exactly what the unfiltered k-nearest-neighbour search does,
in the same order, and ends with the same candidate list; the only difference is `cmps`, which does not
count the start points. -/
theorem C65_inline_same_traversal (pad : D) (G : Graph I D) (ok : I → Bool) (V starts : List I)
    (p : InlineParams) (stop : Nat → Bool) (hG : FiniteGraph V G.adj starts) (hn : starts.Nodup)
    (hno : p.adaptive = none) (hl : 1 ≤ p.l) (hb : 1 ≤ p.beam) (fuel : Nat) (hf : V.length < fuel) :
    ∃ s, inlineTraverse pad G ok starts p stop fuel = some s ∧
      knnTraverse pad G starts p.l p.beam stop fuel =
        some { s.scratch with cmps := s.scratch.cmps + starts.length } := by
  obtain ⟨s, h1, -, -, h4⟩ := inline_spec pad G (stable_true pad G) ok starts p stop
    (R := Reach G.adj starts) (fun x y hx _ he => .step hx he) (fun x hx => .start hx) V
    (reach_mem hG) hn (fun a ha => by rw [hno] at ha; cases ha) hl hb
    (fun _ _ _ _ _ _ _ => trivial) trivial fuel hf
  exact ⟨s, h1, h4 hno⟩

/-- **C65, the adaptive list size.** For a scale factor `q ≥ 1` the adapted size lies between `l` and
`⌊l·q⌋` (both capped at `usize::MAX`): the unscaled size when at least half of the sample matches,
`l · min(2, q)` between a tenth and a half, `l · q` when nothing matches. -/
theorem C65_adaptive_size (logScale : Nat → Nat → Rat) (l visited matched : Nat) (q : Rat) (hq : 1 ≤ q)
    (hl : l ≤ usizeMax) :
    ∃ n, computeAdaptiveL logScale l visited matched (.fin q) = some n ∧ l ≤ n ∧
      n ≤ (l * q : Rat).floor.toNat ∧
      (matched = 0 → n = min (l * q : Rat).floor.toNat usizeMax) ∧
      (0 < matched → 0 < visited → visited ≤ 2 * matched → n = l) ∧
      (0 < matched → 2 * matched < visited → visited ≤ 10 * matched →
        n = min (l * min 2 q : Rat).floor.toNat usizeMax) := by
  have hone : ((l : Rat) * 1).floor.toNat = l := by
    rw [mul_one]; exact congrArg Int.toNat (Int.floor_natCast (R := Rat) l)
  obtain ⟨x, x1, x2, hx⟩ := computeAdaptiveL_spec logScale l visited matched q hq
  refine ⟨_, hx, ?_, ?_, ?_, ?_, ?_⟩
  · have := floor_mul_mono l 1 x x1
    rw [hone] at this
    exact le_min this hl
  · exact le_trans (min_le_left _ _) (floor_mul_mono l x q x2)
  · intro h0
    unfold computeAdaptiveL at hx
    rw [if_pos (Or.inl h0)] at hx
    exact (Option.some.inj hx).symm
  · intro h0 h1 h2
    unfold computeAdaptiveL at hx
    rw [if_neg (by omega)] at hx
    have hv : (0 : Rat) < visited := by exact_mod_cast h1
    have hsp : (1 / 2 : Rat) ≤ (matched : Rat) / visited := by
      rw [div_le_div_iff₀ (by norm_num) hv]
      have : (visited : Rat) ≤ 2 * matched := by exact_mod_cast h2
      linarith
    dsimp only at hx
    rw [if_pos hsp] at hx
    simp only [clampOne, if_neg (not_lt.mpr hq), Option.map_some, mulCast, Option.some.injEq, max_self,
      min_eq_left hq, hone] at hx
    rw [← hx]
    exact min_eq_left hl
  · intro h0 h1 h2
    unfold computeAdaptiveL at hx
    rw [if_neg (by omega)] at hx
    have hv : (0 : Rat) < visited := by exact_mod_cast (show 0 < visited by omega)
    have hsp : ¬ (1 / 2 : Rat) ≤ (matched : Rat) / visited := by
      rw [not_le, div_lt_div_iff₀ hv (by norm_num)]
      have : (2 * matched : Rat) < visited := by exact_mod_cast h1
      linarith
    have hsp2 : (1 / 10 : Rat) ≤ (matched : Rat) / visited := by
      rw [div_le_div_iff₀ (by norm_num) hv]
      have : (visited : Rat) ≤ 10 * matched := by exact_mod_cast h2
      linarith
    dsimp only at hx
    rw [if_neg hsp, if_pos hsp2] at hx
    have h21 : max (2 : Rat) 1 = 2 := by norm_num
    simp only [clampOne, if_neg (not_lt.mpr hq), Option.map_some, mulCast, Option.some.injEq, h21] at hx
    exact hx.symm

/-! ## Where the code departs from what a user would expect -/

/-- A sort satisfying the contract: it leaves lists with a NaN alone. -/
def demoSort (l : List (Nat × Option Int)) : Option (List (Nat × Option Int)) :=
  if l.all fun x => x.2.isSome then some (l.insertionSort fun a b => a.2.getD 0 ≤ b.2.getD 0) else some l

theorem demoSort_isSort : IsSort demoSort := by
  constructor
  · intro l l' h
    unfold demoSort at h
    split at h
    · cases h; exact List.perm_insertionSort _ _
    · cases h; exact List.Perm.refl _
  · intro l hl
    have : (l.all fun x => x.2.isSome) = true := by
      rw [List.all_eq_true]
      intro x hx
      have := hl x hx
      cases h : x.2 with
      | none => exact absurd h this
      | some d => rfl
    unfold demoSort
    rw [if_pos this]
    refine ⟨_, rfl, ?_⟩
    have ht : Std.Total (fun a b : Nat × Option Int => a.2.getD 0 ≤ b.2.getD 0) := ⟨fun a b => le_total _ _⟩
    have htr : IsTrans (Nat × Option Int) (fun a b => a.2.getD 0 ≤ b.2.getD 0) := ⟨fun a b c => le_trans⟩
    refine (List.pairwise_insertionSort _ _).imp ?_
    intro a b hab d e hd he
    rw [hd, he] at hab
    exact hab

/-- Three start points with list size 2; vertex 4, the only accepted one, is behind 3, which is the
worst of the four candidates. -/
def narrowG : Graph Nat Int where
  adj := fun | 0 => [3] | 3 => [4] | _ => []
  dist := fun | 0 => some 1 | 1 => some 2 | 2 => some 3 | 3 => some 4 | 4 => some 0 | _ => none

/-- **Disagreement.** Turning adaptive list size on can narrow the search: the candidate list of a
search with list size `l` has `l + (number of start points)` places, and the "scaled up" size replaces
both. Here `l = 2` with three start points; scaling by 3/2 gives 3 places instead of 5, and the only
matching vertex, found without adaptive list size, is lost. -/
theorem C65_adaptive_can_narrow :
    (inlineSearch 0 narrowG (fun i => i == 4) [0, 1, 2] ⟨2, 1, none, fun _ _ => 2, 100⟩ (fun _ => false)
        demoSort 9).map (·.2) = some [(4, some 0)] ∧
    AdaptiveL.new 1 (.fin (3 / 2)) = some ⟨1, .fin (3 / 2)⟩ ∧
    (inlineSearch 0 narrowG (fun i => i == 4) [0, 1, 2] ⟨2, 1, some ⟨1, .fin (3 / 2)⟩, fun _ _ => 2, 100⟩
        (fun _ => false) demoSort 9).map (·.2) = some [] := by
  decide +kernel

/-- C65, accepted settings. Exactly a positive sample count with a scale factor that is not below one is accepted,
and kept as given. -/
theorem C65_adaptive_accepted (sampleCount : Nat) (scale : F64) (a : AdaptiveL) :
    AdaptiveL.new sampleCount scale = some a ↔
      a = ⟨sampleCount, scale⟩ ∧ 0 < sampleCount ∧ scale ≠ .negInf ∧ ∀ q, scale = .fin q → 1 ≤ q := by
  unfold AdaptiveL.new
  constructor
  · intro h
    split at h
    · cases h
    · rename_i h1
      split at h
      · cases h
      · rename_i h2
        refine ⟨(Option.some.inj h).symm, by omega, ?_, ?_⟩
        · rintro rfl; exact h1 rfl
        · rintro q rfl
          simp only [F64.ltOne, decide_eq_true_eq] at h1
          exact Rat.not_lt.1 h1
  · rintro ⟨rfl, h1, h2, h3⟩
    have : scale.ltOne = false := by
      cases scale with
      | nan => rfl
      | negInf => exact absurd rfl h2
      | posInf => rfl
      | fin q =>
        simp only [F64.ltOne, decide_eq_false_iff_not]
        exact Rat.not_lt.2 (h3 q rfl)
    rw [this, if_neg (by simp), if_neg (by omega)]

/-- **Disagreement.** A NaN scale factor passes validation, and the search then panics as soon as a
sample contains a match. -/
theorem C65_nan_scale_panics :
    AdaptiveL.new 1 .nan = some ⟨1, .nan⟩ ∧
    ∀ (logScale : Nat → Nat → Rat) (l visited matched : Nat), 0 < matched → 0 < visited →
      computeAdaptiveL logScale l visited matched .nan = none := by
  refine ⟨by decide, ?_⟩
  intro ls l v m hm hv
  unfold computeAdaptiveL
  rw [if_neg (by omega)]
  rfl

/-- **Disagreement.** An infinite scale factor passes validation, and a sample without match then asks
for a list of `usize::MAX` entries, which cannot be allocated. -/
theorem C65_infinite_scale_panics (l lim : Nat) (hlim : lim < usizeMax) (hl : l < usizeMax)
    (logScale : Nat → Nat → Rat) (s : InlineSt I D) (hs : s.adjusted = false)
    (hv : 1 ≤ s.sampleVisited) (hm : s.sampleMatched = 0) (hc : s.scratch.best.capacity < usizeMax) (beam : Nat) :
    AdaptiveL.new 1 .posInf = some ⟨1, .posInf⟩ ∧
    adaptStep ⟨l, beam, some ⟨1, .posInf⟩, logScale, lim⟩ s = none := by
  refine ⟨by decide, ?_⟩
  unfold adaptStep
  dsimp only
  rw [if_pos (by simp [hs, hv])]
  unfold computeAdaptiveL
  rw [if_pos (Or.inl hm)]
  dsimp only [mulCast]
  rw [if_pos hl, if_pos ⟨hc, hlim⟩]

/-- **Disagreement.** An accepted vector whose distance is NaN is returned by the inline filtered
search (the unfiltered search never returns one), and it leaves the results unsorted: here 9 comes
before 4, which a search list of this size would have ordered. -/
theorem C65_nan_distance_returned :
    ∃ (G : Graph Nat Int), (∀ x, ¬ G.dist x = none ∨ x = 2 ∨ 3 < x) ∧ IsSort (I := Nat) (D := Int) demoSort ∧
      (inlineSearch 0 G (fun _ => true) [0] ⟨10, 1, none, fun _ _ => 2, 100⟩ (fun _ => false) demoSort 9).map (·.2)
        = some [(0, some 3), (1, some 9), (2, none), (3, some 4)] := by
  refine ⟨⟨fun | 0 => [1, 2, 3] | _ => [], fun | 0 => some 3 | 1 => some 9 | 3 => some 4 | _ => none⟩,
    ?_, demoSort_isSort, by decide +kernel⟩
  · intro x
    match x with
    | 0 => left; simp
    | 1 => left; simp
    | 2 => right; left; rfl
    | 3 => left; simp
    | x + 4 => right; right; omega

/-! ## Non-vacuity -/

/-- The hypotheses of the theorems above are met by a search with adaptive list size. -/
def demoInline : InlineParams := ⟨4, 2, some ⟨2, .fin 4⟩, fun _ _ => 3, 1000⟩

theorem demoInline_safe : demoInline.Safe := by
  intro a ha
  cases ha
  exact ⟨4, rfl, by norm_num, by decide +kernel⟩

example := C65_inline_sound 0 demoG' (fun i => i % 2 == 0) [0, 1, 2, 4, 5] [0] demoInline (fun _ => false)
  demoSort demoSort_isSort demoG'_finite (by simp) demoInline_safe (by decide) (by decide) 6 (by simp)

example := C65_inline_exact 0 demoG' (fun i => i % 2 == 0) [0, 1, 2, 4, 5] [0] demoInline demoSort
  demoSort_isSort demoG'_finite (by simp) demoInline_safe (by decide) (by decide) 6 (by simp) [0, 1, 2, 4]
  demoG'_reach (by decide) (by decide)

example : (inlineSearch 0 demoG' (fun i => i == 2) [0] demoInline (fun _ => false) demoSort 6).map
    (fun r => (r.2, r.1.scratch.cmps, r.1.scratch.hops, r.1.scratch.best.capacity)) =
      some ([(2, some 1)], 3, 4, 16) := by
  decide +kernel

example := C65_inline_same_traversal 0 demoG' (fun i => i % 2 == 0) [0, 1, 2, 4, 5] [0]
  ⟨2, 1, none, fun _ _ => 3, 0⟩ (fun _ => false) demoG'_finite (by simp) rfl (by decide) (by decide) 6 (by simp)

example := C65_adaptive_size (fun _ _ => 4) 100 1000 100 16 (by norm_num) (by decide)

/-! ### The list size is adapted once -/

theorem insert_searchL (pad : D) (q q' : Queue I D) (i : I) (d : Option D)
    (h : q.insert pad i d = some q') : q'.searchL = q.searchL := by
  unfold Queue.insert at h
  cases d with
  | none => simp at h; rw [h]
  | some d =>
    dsimp only at h
    generalize hq : (if (q.auto && q.size == q.capacity) = true then
      { q with capacity := q.capacity + max 1 (q.capacity / 2) } else q) = r at h
    have hr : r.searchL = q.searchL := by rw [← hq]; split <;> rfl
    split at h
    · simp at h
    · rw [← hr]
      revert h
      repeat' split
      all_goals intro h
      all_goals first
        | (injection h with h; rw [← h]; done)
        | (cases h; done)

theorem fillBeam_searchL (n : Nat) : ∀ (q q' : Queue I D) (l : List I),
    fillBeam q n = some (l, q') → q'.searchL = q.searchL := by
  induction n with
  | zero => intro q q' l h; simp [fillBeam] at h; rw [h.2]
  | succ n ih =>
    intro q q' l h
    have hpop : ∀ o r, q.pop = some (o, r) → r.searchL = q.searchL := by
      intro o r hp
      unfold Queue.pop at hp
      split at hp
      · simp at hp; rw [← hp.2]
      · dsimp only at hp
        split at hp
        · simp at hp
        · split at hp
          · simp at hp
          · simp at hp; rw [← hp.2]
    unfold fillBeam at h
    split at h
    · simp at h
    · rename_i r hp; simp at h; rw [← h.2]; exact hpop _ _ hp
    · rename_i x r hp
      split at h
      · simp at h
      · rename_i t ht
        simp at h
        obtain ⟨_, rfl⟩ := h
        rw [ih _ _ _ ht]; exact hpop _ _ hp

theorem inlineNeighbor_searchL (pad : D) (G : Graph I D) (ok : I → Bool) (ids : List I) :
    ∀ (s t : Queue I D × List (I × Option D) × Nat × Nat),
      ids.foldlM (inlineNeighbor pad G ok) s = some t →
        t.1.searchL = s.1.searchL ∧ t.2.2.1 = s.2.2.1 + ids.length := by
  induction ids with
  | nil => intro s t h; simp at h; rw [h]; simp
  | cons i ids ih =>
    intro s t h
    rw [List.foldlM_cons] at h
    cases h1 : inlineNeighbor pad G ok s i with
    | none => rw [h1] at h; simp at h
    | some u =>
      rw [h1] at h
      have := ih u t h
      unfold inlineNeighbor at h1
      dsimp only at h1
      split at h1
      · simp at h1
      · rename_i q hq
        simp at h1
        rw [← h1] at this
        have e := insert_searchL _ _ _ _ _ hq
        dsimp only at this
        refine ⟨by rw [this.1, e], by rw [this.2, List.length_cons]; omega⟩

theorem adaptStep_cases (p : InlineParams) (s s' : InlineSt I D) (h : adaptStep p s = some s') :
    s'.sampleVisited = s.sampleVisited ∧
    (s.adjusted = true → s'.adjusted = true ∧ s'.scratch.best.searchL = s.scratch.best.searchL) ∧
    (p.adaptive = none → s'.scratch.best.searchL = s.scratch.best.searchL) ∧
    (∀ a, p.adaptive = some a →
      (a.sampleCount ≤ s.sampleVisited → s'.adjusted = true) ∧
      (s.sampleVisited < a.sampleCount →
        s'.adjusted = s.adjusted ∧ s'.scratch.best.searchL = s.scratch.best.searchL)) := by
  unfold adaptStep at h
  cases ha : p.adaptive with
  | none => rw [ha] at h; simp at h; subst h; simp
  | some a =>
    rw [ha] at h
    dsimp only at h
    split at h
    · rename_i hc
      simp only [Bool.and_eq_true, Bool.not_eq_true', decide_eq_true_eq] at hc
      split at h
      · simp at h
      · split at h
        · split at h
          · simp at h
          · simp at h; subst h
            refine ⟨rfl, by simp [hc.1], by simp, ?_⟩
            intro b hb; cases hb; exact ⟨fun _ => rfl, fun hlt => by omega⟩
        · simp at h; subst h
          refine ⟨rfl, by simp [hc.1], by simp, ?_⟩
          intro b hb; cases hb; exact ⟨fun _ => rfl, fun hlt => by omega⟩
    · rename_i hc
      simp at h; subst h
      refine ⟨rfl, fun hadj => ⟨hadj, rfl⟩, by simp, ?_⟩
      intro b hb; cases hb
      refine ⟨fun hle => ?_, fun _ => ⟨rfl, rfl⟩⟩
      simp only [Bool.and_eq_true, Bool.not_eq_true', decide_eq_true_eq, not_and] at hc
      cases hadj : s.adjusted with
      | true => rfl
      | false => exact absurd hle (hc hadj)

theorem inlineRound_cases (pad : D) (G : Graph I D) (ok : I → Bool) (p : InlineParams)
    (s s' : InlineSt I D) (nodes : List I) (q : Queue I D) (hq : q.searchL = s.scratch.best.searchL)
    (h : inlineRound pad G ok p s nodes q = some s') :
    s.sampleVisited ≤ s'.sampleVisited ∧
    (s.adjusted = true → s'.adjusted = true ∧ s'.scratch.best.searchL = s.scratch.best.searchL) ∧
    (p.adaptive = none → s'.scratch.best.searchL = s.scratch.best.searchL) ∧
    (∀ a, p.adaptive = some a →
      (a.sampleCount ≤ s'.sampleVisited → s'.adjusted = true) ∧
      (s'.sampleVisited < a.sampleCount → s'.scratch.best.searchL = s.scratch.best.searchL)) := by
  unfold inlineRound at h
  dsimp only at h
  split at h
  · simp at h
  · rename_i q' m sv sm hf
    have e := inlineNeighbor_searchL pad G ok _ _ _ hf
    dsimp only at e
    obtain ⟨c1, c2, c3, c4⟩ := adaptStep_cases p _ s' h
    dsimp only at c1 c2 c3 c4
    refine ⟨by omega, fun hadj => ?_, fun hn => ?_, fun a ha => ⟨fun hle => ?_, fun hlt => ?_⟩⟩
    · obtain ⟨x, y⟩ := c2 hadj; exact ⟨x, by rw [y, e.1, hq]⟩
    · rw [c3 hn, e.1, hq]
    · exact (c4 a ha).1 (by omega)
    · rw [((c4 a ha).2 (by omega)).2, e.1, hq]

theorem inlineLoop_adjusted (pad : D) (G : Graph I D) (ok : I → Bool) (p : InlineParams)
    (stop : Nat → Bool) (fuel : Nat) : ∀ (n : Nat) (s s' : InlineSt I D),
      inlineLoop pad G ok p stop fuel n s = some s' →
      s.sampleVisited ≤ s'.sampleVisited ∧
      (s.adjusted = true ∨ p.adaptive = none → s'.scratch.best.searchL = s.scratch.best.searchL) ∧
      (∀ a, p.adaptive = some a → s'.sampleVisited < a.sampleCount →
        s'.scratch.best.searchL = s.scratch.best.searchL) := by
  induction fuel with
  | zero => intro n s s' h; simp [inlineLoop] at h
  | succ fuel ih =>
    intro n s s' h
    unfold inlineLoop at h
    split at h
    · simp at h; subst h; simp
    · split at h
      · simp at h
      · rename_i nodes q hb
        have hq := fillBeam_searchL _ _ _ _ hb
        split at h
        · simp at h; subst h; simp [hq]
        · split at h
          · simp at h
          · rename_i s1 hr
            obtain ⟨c1, c2, c3, c4⟩ := inlineRound_cases pad G ok p s s1 nodes q hq hr
            obtain ⟨d1, d2, d3⟩ := ih _ _ _ h
            refine ⟨by omega, ?_, ?_⟩
            · rintro (h' | h')
              · rw [d2 (Or.inl (c2 h').1), (c2 h').2]
              · rw [d2 (Or.inr h'), c3 h']
            · intro a ha hlt
              rw [d3 a ha hlt, (c4 a ha).2 (by omega)]

theorem inlineLoop_prefix (pad : D) (G : Graph I D) (ok : I → Bool) (p : InlineParams)
    (a : AdaptiveL) (ha : p.adaptive = some a) (stop : Nat → Bool) (k : Nat) (fuel : Nat) :
    ∀ (n : Nat) (s sk s' : InlineSt I D), n ≤ k →
      (n = k → a.sampleCount ≤ s.sampleVisited → s.adjusted = true) →
      inlineLoop pad G ok p (fun m => stop m || m == k) fuel n s = some sk →
      inlineLoop pad G ok p stop fuel n s = some s' →
      a.sampleCount ≤ sk.sampleVisited → s'.scratch.best.searchL = sk.scratch.best.searchL := by
  induction fuel with
  | zero => intro n s sk s' _ _ h; simp [inlineLoop] at h
  | succ fuel ih =>
    intro n s sk s' hnk hadj h h' hle
    by_cases hk : n = k
    · have : sk = s := by
        unfold inlineLoop at h
        rw [if_pos (by simp [hk])] at h
        simp at h; exact h.symm
      subst this
      exact (inlineLoop_adjusted pad G ok p stop (fuel + 1) n sk s' h').2.1 (Or.inl (hadj hk hle))
    · unfold inlineLoop at h h'
      dsimp only at h
      have hst : (stop n || n == k) = stop n := by simp [hk]
      rw [hst] at h
      split at h
      · rename_i hs
        rw [if_pos hs] at h'
        simp at h h'
        rw [← h, ← h']
      · rename_i hs
        rw [if_neg hs] at h'
        split at h
        · simp at h
        · rename_i nodes q hb
          rw [hb] at h'
          dsimp only at h'
          split at h
          · rename_i hn
            rw [if_pos hn] at h'
            simp at h h'
            rw [← h, ← h']
          · rename_i hn
            rw [if_neg hn] at h'
            split at h
            · simp at h
            · rename_i s1 hr
              rw [hr] at h'
              have hq := fillBeam_searchL _ _ _ _ hb
              refine ih (n + 1) s1 sk s' (by omega) ?_ h h' hle
              intro _ hle'
              exact ((inlineRound_cases pad G ok p s s1 nodes q hq hr).2.2.2 a ha).1 hle'

/-- **C65, the list size changes once.** Take a search, and the same search stopped after `k ≥ 1` rounds.
Without adaptive list size, or as long as fewer neighbours than the requested sample were evaluated, the
list size is the requested one (plus the number of start points). Once the sample is complete at the end of a round, the list size is
that of the finished search. -/
theorem C65_adaptive_once (pad : D) (G : Graph I D) (ok : I → Bool) (starts : List I) (p : InlineParams)
    (stop : Nat → Bool) (fuel : Nat) (s : InlineSt I D)
    (h : inlineTraverse pad G ok starts p stop fuel = some s) :
    (p.adaptive = none → s.scratch.best.searchL = p.l + starts.length) ∧
    ∀ a, p.adaptive = some a →
      (s.sampleVisited < a.sampleCount → s.scratch.best.searchL = p.l + starts.length) ∧
      ∀ k sk, 1 ≤ k → inlineTraverse pad G ok starts p (fun n => stop n || n == k) fuel = some sk →
        a.sampleCount ≤ sk.sampleVisited → s.scratch.best.searchL = sk.scratch.best.searchL := by
  have hstart : ∀ (ids : List I) (t t' : InlineSt I D), ids.foldlM (inlineStart pad G ok) t = some t' →
      t'.scratch.best.searchL = t.scratch.best.searchL := by
    intro ids
    induction ids with
    | nil => intro t t' h; simp at h; rw [h]
    | cons i ids ih =>
      intro t t' h
      rw [List.foldlM_cons] at h
      cases h1 : inlineStart pad G ok t i with
      | none => rw [h1] at h; simp at h
      | some u =>
        rw [h1] at h
        rw [ih u t' h]
        unfold inlineStart at h1
        split at h1
        · simp at h1
        · rename_i q hq
          simp at h1
          rw [← h1]
          exact insert_searchL _ _ _ _ _ hq
  unfold inlineTraverse at h
  split at h
  · simp at h
  · rename_i s0 hs0
    have e0 := hstart _ _ _ hs0
    replace e0 : s0.scratch.best.searchL = p.l + starts.length := e0
    obtain ⟨_, d2, d3⟩ := inlineLoop_adjusted pad G ok p stop fuel 0 s0 s h
    refine ⟨fun hn => by rw [d2 (Or.inr hn), e0], fun a ha => ⟨fun hlt => by rw [d3 a ha hlt, e0], ?_⟩⟩
    intro k sk hk hsk hle
    unfold inlineTraverse at hsk
    rw [hs0] at hsk
    exact inlineLoop_prefix pad G ok p a ha stop k fuel 0 s0 sk s (by omega) (by omega) hsk h hle

/-- A search whose list grows from 5 to 16, in the first round. -/
example :
    (inlineTraverse 0 demoG' (fun i => i == 2) [0] ⟨4, 1, some ⟨2, .fin 4⟩, fun _ _ => 3, 1000⟩
      (fun n => false || n == 0) 6).map (fun s => (s.sampleVisited, s.scratch.best.searchL)) = some (0, 5) ∧
    (inlineTraverse 0 demoG' (fun i => i == 2) [0] ⟨4, 1, some ⟨2, .fin 4⟩, fun _ _ => 3, 1000⟩
      (fun n => false || n == 1) 6).map (fun s => (s.sampleVisited, s.scratch.best.searchL)) = some (2, 16) ∧
    (inlineTraverse 0 demoG' (fun i => i == 2) [0] ⟨4, 1, some ⟨2, .fin 4⟩, fun _ _ => 3, 1000⟩
      (fun _ => false) 6).map (fun s => (s.sampleVisited, s.scratch.best.searchL)) = some (3, 16) := by
  decide +kernel

end Verif.Search
