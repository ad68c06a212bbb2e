import Verif.Graph.PruneModel
import Verif.Graph.AdjProps
import Mathlib.Tactic.Linarith
import Mathlib.Tactic.NormNum
import Mathlib.Algebra.Order.Archimedean.Basic
import Mathlib.Data.Rat.Cast.Order

namespace Verif.Graph

/-! ### Facts that hold for every update rule -/

/-- Structural invariant of the prune state. -/
structure Inv (P : Problem) (s : State) : Prop where
  nodup : s.chosen.Nodup
  range : ∀ i ∈ s.chosen, i < P.n ∧ P.usable i = true
  len : s.chosen.length ≤ P.degree
  top : ∀ i ∈ s.chosen, s.factor i = ⊤
  last : ∀ i, s.lastChecked i ≤ s.chosen.length

theorem inv_init (P : Problem) : Inv P State.init := by
  constructor <;> simp [State.init]

theorem checkAgainst_last (P : Problem) (i : Nat) (alpha : Rat) (l : List Nat) (f : Factor) (last : Nat) :
    (checkAgainst P i alpha l f last).2 ≤ last + l.length := by
  induction l generalizing f last with
  | nil => simp [checkAgainst]
  | cons a l ih =>
    simp only [checkAgainst, List.length_cons]
    split
    · have := ih f (last+1); omega
    · split
      · simp
      · have := ih (P.update (P.dik i) (P.dist i a) f alpha) (last+1); omega

theorem inv_visit (P : Problem) (alpha : Rat) (s : State) (h : Inv P s) (i : Nat) (hi : i < P.n) :
    Inv P (visit P alpha s i) := by
  unfold visit
  split
  · exact h
  · rename_i hdeg
    split
    · exact h
    · rename_i hf
      have hni : i ∉ s.chosen := by
        intro hin
        rw [h.top i hin] at hf
        exact hf (WithTop.coe_lt_top _)
      split
      · refine ⟨h.nodup, h.range, h.len, ?_, h.last⟩
        intro j hj
        by_cases hij : j = i
        · subst hij; simp
        · simp [Function.update_of_ne hij, h.top j hj]
      · rename_i hu
        have hlast := checkAgainst_last P i alpha (s.chosen.drop (s.lastChecked i)) (s.factor i) (s.lastChecked i)
        rw [List.length_drop] at hlast
        have hl := h.last i
        simp only
        split
        · refine ⟨h.nodup, h.range, h.len, ?_, ?_⟩
          · intro j hj
            have hij : j ≠ i := fun e => hni (e ▸ hj)
            simp [Function.update_of_ne hij, h.top j hj]
          · intro j
            by_cases hij : j = i
            · subst hij; simp only [Function.update_self]; omega
            · simp only [Function.update_of_ne hij]; exact h.last j
        · refine ⟨?_, ?_, ?_, ?_, ?_⟩
          · rw [List.nodup_append]
            refine ⟨h.nodup, by simp, ?_⟩
            intro a ha b hb hab
            simp only [List.mem_singleton] at hb
            subst hb; subst hab; exact hni ha
          · intro j hj
            simp only [List.mem_append, List.mem_singleton] at hj
            rcases hj with hj | rfl
            · exact h.range j hj
            · exact ⟨hi, by simpa using hu⟩
          · simp; omega
          · intro j hj
            simp only [List.mem_append, List.mem_singleton] at hj
            by_cases hij : j = i
            · subst hij; simp
            · simp only [Function.update_of_ne hij]
              rcases hj with hj | hj
              · exact h.top j hj
              · exact absurd hj hij
          · intro j
            simp only [List.length_append, List.length_singleton]
            by_cases hij : j = i
            · subst hij; simp only [Function.update_self]; omega
            · simp only [Function.update_of_ne hij]; have := h.last j; omega

theorem foldl_range_induct {S : Type} (f : S → Nat → S) (p : Nat → S → Prop) (n : Nat) (s : S)
    (h0 : p 0 s) (hs : ∀ m s, m < n → p m s → p (m + 1) (f s m)) : p n ((List.range n).foldl f s) := by
  suffices h : ∀ m, m ≤ n → p m ((List.range m).foldl f s) from h n (Nat.le_refl n)
  intro m
  induction m with
  | zero => intro _; simpa using h0
  | succ m ih =>
    intro hm
    rw [List.range_succ, List.foldl_append]
    exact hs m _ hm (ih (by omega))

theorem inv_round (P : Problem) (alpha : Rat) (s : State) (h : Inv P s) : Inv P (round P alpha s) := by
  unfold round
  exact foldl_range_induct _ (fun _ s => Inv P s) P.n s h (fun m s hm hs => inv_visit P alpha s hs m hm)

theorem inv_rounds (P : Problem) (fuel : Nat) (cur : Rat) (s s' : State) (h : Inv P s)
    (hr : rounds P fuel cur s = some s') : Inv P s' := by
  induction fuel generalizing cur s with
  | zero => simp [rounds] at hr
  | succ fuel ih =>
    rw [rounds] at hr
    split at hr
    · simp only at hr
      split at hr
      · simp only [Option.some.injEq] at hr; subst hr; exact inv_round P _ s h
      · exact ih _ _ (inv_round P _ s h) hr
    · simp only [Option.some.injEq] at hr; subst hr; exact h

/-! ### Termination -/

theorem rounds_mono (P : Problem) (fuel : Nat) (cur : Rat) (s s' : State)
    (hr : rounds P fuel cur s = some s') : ∀ k, rounds P (fuel + k) cur s = some s' := by
  induction fuel generalizing cur s with
  | zero => simp [rounds] at hr
  | succ fuel ih =>
    intro k
    have e : fuel + 1 + k = (fuel + k) + 1 := by omega
    rw [e, rounds]
    rw [rounds] at hr
    split at hr
    · rename_i h
      rw [if_pos h]
      simp only at hr ⊢
      split at hr
      · rename_i h2; rw [if_pos h2]; exact hr
      · rename_i h2; rw [if_neg h2]; exact ih _ _ hr k
    · rename_i h; rw [if_neg h]; exact hr

theorem rounds_terminates_at (P : Problem) (a : Rat) (ha : P.alpha = some a) (s : State) :
    ∃ s', rounds P 1 a s = some s' := by
  rw [rounds]
  split
  · simp [ha]
  · exact ⟨s, rfl⟩

theorem rounds_terminates_big (P : Problem) (a : Rat) (ha : P.alpha = some a) (hal : 6 / 5 < a) :
    ∀ (n : Nat) (cur : Rat) (s : State), 1 ≤ cur → a ≤ cur * (6/5) ^ n →
      ∃ s', rounds P (n + 2) cur s = some s' := by
  have hinc : increment P.alpha = 6/5 := by
    rw [ha]; unfold increment fmin; exact min_eq_left (le_of_lt hal)
  intro n
  induction n with
  | zero =>
    intro cur s h1 h2
    by_cases hc : cur = a
    · obtain ⟨s', h⟩ := rounds_terminates_at P a ha s
      exact ⟨s', by rw [hc]; exact rounds_mono P _ _ _ _ h 1⟩
    · have hmin : fmin (cur * increment P.alpha) P.alpha = a := by
        rw [hinc, ha, fmin]; apply min_eq_right
        simp at h2
        linarith
      obtain ⟨s', h⟩ := rounds_terminates_at P a ha (round P cur s)
      by_cases hd : s.chosen.length < P.degree
      · exact ⟨s', by
          rw [rounds, if_pos hd]; simp only [hmin]
          rw [if_neg (by rw [ha]; simpa using hc)]; exact h⟩
      · exact ⟨s, by rw [rounds, if_neg hd]⟩
  | succ n ih =>
    intro cur s h1 h2
    by_cases hd : s.chosen.length < P.degree
    · by_cases hc : cur = a
      · obtain ⟨s', h⟩ := rounds_terminates_at P a ha s
        have := rounds_mono P _ _ _ _ h (n + 2)
        rw [show 1 + (n + 2) = n + 1 + 2 by omega] at this
        exact ⟨s', by rw [hc]; exact this⟩
      · rcases le_total a (cur * (6/5)) with hle | hle
        · have hmin : fmin (cur * increment P.alpha) P.alpha = a := by
            rw [hinc, ha, fmin]; exact min_eq_right hle
          obtain ⟨s', h⟩ := rounds_terminates_at P a ha (round P cur s)
          have := rounds_mono P _ _ _ _ h (n + 1)
          rw [show 1 + (n + 1) = n + 2 by omega] at this
          exact ⟨s', by
            rw [show n + 1 + 2 = (n + 2) + 1 by omega, rounds, if_pos hd]; simp only [hmin]
            rw [if_neg (by rw [ha]; simpa using hc)]; exact this⟩
        · have hmin : fmin (cur * increment P.alpha) P.alpha = cur * (6/5) := by
            rw [hinc, ha, fmin]; exact min_eq_left hle
          obtain ⟨s', h⟩ := ih (cur * (6/5)) (round P cur s) (by linarith) (by
            rw [pow_succ] at h2
            have e : cur * (6/5) * (6/5) ^ n = cur * ((6/5) ^ n * (6/5)) := by ring
            rw [e]; exact h2)
          exact ⟨s', by
            rw [show n + 1 + 2 = (n + 2) + 1 by omega, rounds, if_pos hd]; simp only [hmin]
            rw [if_neg (by rw [ha]; simpa using hc)]; exact h⟩
    · exact ⟨s, by rw [show n + 1 + 2 = (n + 2) + 1 by omega, rounds, if_neg hd]⟩

/-- The number of rounds depends on alpha only. -/
theorem rounds_terminates (a : Rat) :
    ∃ fuel, ∀ (P : Problem), P.alpha = some a → ∀ s, ∃ s', rounds P fuel 1 s = some s' := by
  by_cases hbig : 6/5 < a
  · obtain ⟨n, hn⟩ := pow_unbounded_of_one_lt a (show (1:Rat) < 6/5 by norm_num)
    exact ⟨n + 2, fun P ha s =>
      rounds_terminates_big P a ha hbig n 1 s (le_refl _) (by rw [one_mul]; exact le_of_lt hn)⟩
  · refine ⟨2, fun P ha s => ?_⟩
    have hinc : fmin (1 * increment P.alpha) P.alpha = a := by
      rw [ha]; unfold increment fmin; simp only [one_mul]
      rw [min_eq_right (not_lt.1 hbig), min_self]
    by_cases hd : s.chosen.length < P.degree
    · by_cases hc : (1:Rat) = a
      · obtain ⟨s', h⟩ := rounds_terminates_at P a ha s
        exact ⟨s', by rw [hc]; exact rounds_mono P _ _ _ _ h 1⟩
      · obtain ⟨s', h⟩ := rounds_terminates_at P a ha (round P 1 s)
        exact ⟨s', by
          rw [rounds, if_pos hd]
          simp only [hinc]; rw [if_neg (by rw [ha]; simpa using hc)]; exact h⟩
    · exact ⟨s, by rw [rounds, if_neg hd]⟩

/-! ### Coverage for the triangle rule -/

/-- The factor `f` of candidate `i` is the occlusion ratio of some earlier chosen candidate. -/
def Witness (P : Problem) (chosen : List Nat) (i : Nat) (f : Factor) : Prop :=
  ∃ j ∈ chosen, j < i ∧
    ((P.dist i j = 0 ∧ f = ⊤) ∨ (P.dist i j ≠ 0 ∧ f = ((P.dik i / P.dist i j : Rat) : Factor)))

/-- The occlusion ratio of `i` by `j` is at most `f`. -/
def Le (P : Problem) (i j : Nat) (f : Factor) : Prop :=
  P.dist i j ≠ 0 ∧ ((P.dik i / P.dist i j : Rat) : Factor) ≤ f

structure Tri (P : Problem) (b : Rat) (s : State) : Prop where
  wit : ∀ i, i ∉ s.chosen → P.usable i = true → s.factor i = 0 ∨ Witness P s.chosen i (s.factor i)
  chk : ∀ i, i ∉ s.chosen → P.usable i = true → ∀ j ∈ s.chosen.take (s.lastChecked i), j < i →
    s.factor i = ⊤ ∨ Le P i j (s.factor i)
  ord : ∀ pre i post, s.chosen = pre ++ i :: post → ∀ j ∈ pre, j < i → Le P i j (b : Factor)

theorem tri_init (P : Problem) (b : Rat) : Tri P b State.init := by
  constructor <;> simp [State.init]

theorem checkAgainst_tri (P : Problem) (hP : P.update = PruneKind.triangleInequality.update)
    (i : Nat) (alpha : Rat) (l : List Nat) (f : Factor) (last : Nat) :
    ((checkAgainst P i alpha l f last).1 = f ∨ Witness P l i (checkAgainst P i alpha l f last).1) ∧
    f ≤ (checkAgainst P i alpha l f last).1 ∧
    ∃ l1 l2, l = l1 ++ l2 ∧ (checkAgainst P i alpha l f last).2 = last + l1.length ∧
      (∀ j ∈ l1, j < i → (checkAgainst P i alpha l f last).1 = ⊤ ∨
        Le P i j (checkAgainst P i alpha l f last).1) ∧
      (¬ (alpha : Factor) < (checkAgainst P i alpha l f last).1 → l2 = []) := by
  induction l generalizing f last with
  | nil => refine ⟨Or.inl rfl, le_refl _, [], [], rfl, rfl, by simp, by simp⟩
  | cons a l ih =>
    rw [checkAgainst]
    split
    · rename_i ha
      obtain ⟨h1, h2, l1, l2, e, h3, h4, h5⟩ := ih f (last + 1)
      refine ⟨?_, h2, a :: l1, l2, by simp [e], by rw [h3]; simp; omega, ?_, h5⟩
      · rcases h1 with h1 | ⟨j, hj, hji⟩
        · exact Or.inl h1
        · exact Or.inr ⟨j, List.mem_cons_of_mem _ hj, hji⟩
      · intro j hj hji
        rcases List.mem_cons.1 hj with rfl | hj
        · omega
        · exact h4 j hj hji
    · rename_i ha
      have ha' : a < i := by omega
      simp only
      -- one step of the triangle rule
      have hstep : ∃ f', f' = P.update (P.dik i) (P.dist i a) f alpha ∧ (f' = f ∨ Witness P [a] i f') ∧
          f ≤ f' ∧ (f' = ⊤ ∨ Le P i a f') := by
        refine ⟨_, rfl, ?_⟩
        rw [hP]
        simp only [PruneKind.update]
        by_cases h0 : P.dist i a = 0
        · rw [if_pos h0]
          exact ⟨Or.inr ⟨a, by simp, ha', Or.inl ⟨h0, rfl⟩⟩, le_top, Or.inl rfl⟩
        · rw [if_neg h0]
          refine ⟨?_, le_max_left _ _, Or.inr ⟨h0, le_max_right _ _⟩⟩
          rcases max_choice f ((P.dik i / P.dist i a : Rat) : Factor) with h | h
          · exact Or.inl h
          · exact Or.inr ⟨a, by simp, ha', Or.inr ⟨h0, h⟩⟩
      obtain ⟨f', hf', hw, hle, hLe⟩ := hstep
      rw [← hf']
      have hw' : ∀ l, f' = f ∨ Witness P (a :: l) i f' := by
        intro l
        rcases hw with hw | ⟨j, hj, hji⟩
        · exact Or.inl hw
        · exact Or.inr ⟨j, by simp at hj; simp [hj], hji⟩
      split
      · rename_i hgt
        refine ⟨hw' l, hle, [a], l, rfl, rfl, ?_, fun h => absurd hgt h⟩
        intro j hj hji
        simp only [List.mem_singleton] at hj
        subst hj; exact hLe
      · obtain ⟨h1, h2, l1, l2, e, h3, h4, h5⟩ := ih f' (last + 1)
        refine ⟨?_, le_trans hle h2, a :: l1, l2, by simp [e], by rw [h3]; simp; omega, ?_, h5⟩
        · rcases h1 with h1 | ⟨j, hj, hji⟩
          · rw [h1]; exact hw' l
          · exact Or.inr ⟨j, List.mem_cons_of_mem _ hj, hji⟩
        · intro j hj hji
          rcases List.mem_cons.1 hj with rfl | hj
          · rcases hLe with h | ⟨h0, hq⟩
            · left
              refine top_le_iff.1 ?_
              conv_lhs => rw [← h]
              exact h2
            · exact Or.inr ⟨h0, le_trans hq h2⟩
          · exact h4 j hj hji

theorem tri_visit (P : Problem) (hP : P.update = PruneKind.triangleInequality.update) (b alpha : Rat)
    (hb : alpha ≤ b) (s : State) (hi : Inv P s) (h : Tri P b s) (i : Nat) :
    Tri P b (visit P alpha s i) := by
  unfold visit
  split
  · exact h
  · split
    · exact h
    · rename_i hf
      have hni : i ∉ s.chosen := by
        intro hin
        rw [hi.top i hin] at hf
        exact hf (WithTop.coe_lt_top _)
      split
      · rename_i hu
        refine ⟨?_, ?_, h.ord⟩
        · intro j hj hju
          have hij : j ≠ i := by rintro rfl; simp [hu] at hju
          simp only [Function.update_of_ne hij]; exact h.wit j hj hju
        · intro j hj hju
          have hij : j ≠ i := by rintro rfl; simp [hu] at hju
          simp only [Function.update_of_ne hij]; exact h.chk j hj hju
      · rename_i hu
        have hu' : P.usable i = true := by simpa using hu
        obtain ⟨h1, h2, l1, l2, e, h3, h4, h5⟩ := checkAgainst_tri P hP i alpha
          (s.chosen.drop (s.lastChecked i)) (s.factor i) (s.lastChecked i)
        generalize checkAgainst P i alpha (s.chosen.drop (s.lastChecked i)) (s.factor i)
          (s.lastChecked i) = r at *
        have hsplit : s.chosen = s.chosen.take (s.lastChecked i) ++ (l1 ++ l2) := by
          rw [← e, List.take_append_drop]
        have hlenTake : (s.chosen.take (s.lastChecked i)).length = s.lastChecked i := by
          rw [List.length_take]; exact min_eq_left (hi.last i)
        -- everything checked so far is bounded by r.1
        have hall : ∀ j ∈ s.chosen.take (s.lastChecked i) ++ l1, j < i → r.1 = ⊤ ∨ Le P i j r.1 := by
          intro j hj hji
          rcases List.mem_append.1 hj with hj | hj
          · rcases h.chk i hni hu' j hj hji with ht | ⟨h0, hq⟩
            · left; rw [ht] at h2; exact top_le_iff.1 h2
            · exact Or.inr ⟨h0, le_trans hq h2⟩
          · exact h4 j hj hji
        have hwit : r.1 = 0 ∨ Witness P s.chosen i r.1 := by
          rcases h1 with h1 | ⟨j, hj, hji⟩
          · rw [h1]; exact h.wit i hni hu'
          · exact Or.inr ⟨j, List.mem_of_mem_drop hj, hji⟩
        simp only
        split
        · refine ⟨?_, ?_, h.ord⟩
          · intro j hj hju
            by_cases hij : j = i
            · subst hij; simpa using hwit
            · simp only [Function.update_of_ne hij]; exact h.wit j hj hju
          · intro j hj hju
            by_cases hij : j = i
            · subst hij
              simp only [Function.update_self]
              have : s.chosen.take r.2 = s.chosen.take (s.lastChecked j) ++ l1 := by
                conv_lhs => rw [hsplit, h3]
                rw [← List.append_assoc]
                rw [List.take_append_of_le_length (by rw [List.length_append, hlenTake])]
                rw [List.take_of_length_le (by rw [List.length_append, hlenTake])]
              rw [this]; exact hall
            · simp only [Function.update_of_ne hij]; exact h.chk j hj hju
        · rename_i hnle
          have hl2 := h5 hnle
          subst hl2
          rw [List.append_nil] at hsplit
          refine ⟨?_, ?_, ?_⟩
          · intro j hj hju
            simp only [List.mem_append, List.mem_singleton, not_or] at hj
            simp only [Function.update_of_ne hj.2]
            rcases h.wit j hj.1 hju with h0 | ⟨k, hk, hkj⟩
            · exact Or.inl h0
            · exact Or.inr ⟨k, List.mem_append_left _ hk, hkj⟩
          · intro j hj hju
            simp only [List.mem_append, List.mem_singleton, not_or] at hj
            simp only [Function.update_of_ne hj.2]
            rw [List.take_append_of_le_length (hi.last j)]
            exact h.chk j hj.1 hju
          · intro pre k post hs j hj hjk
            rcases List.eq_nil_or_concat post with hp | ⟨post', x, hp⟩
            · subst hp
              have := List.append_inj' hs (by simp)
              obtain ⟨e1, e2⟩ := this
              simp only [List.cons.injEq, and_true] at e2
              subst e2; subst e1
              rw [hsplit] at hj
              rcases hall j hj hjk with ht | ⟨h0, hq⟩
              · exact absurd (ht ▸ WithTop.coe_lt_top alpha) hnle
              · exact ⟨h0, le_trans hq (le_trans (not_lt.1 hnle) (WithTop.coe_le_coe.2 hb))⟩
            · subst hp
              have hs' : s.chosen ++ [i] = (pre ++ k :: post') ++ [x] := by
                simp only at hs; rw [hs]; simp
              have := List.append_inj' hs' (by simp)
              exact h.ord pre k post' this.1 j hj hjk

theorem tri_round (P : Problem) (hP : P.update = PruneKind.triangleInequality.update) (b alpha : Rat)
    (hb : alpha ≤ b) (s : State) (hi : Inv P s) (h : Tri P b s) : Tri P b (round P alpha s) := by
  unfold round
  exact (foldl_range_induct _ (fun _ s => Inv P s ∧ Tri P b s) P.n s ⟨hi, h⟩
    (fun m s hm hs => ⟨inv_visit P alpha s hs.1 m hm, tri_visit P hP b alpha hb s hs.1 hs.2 m⟩)).2

theorem tri_rounds (P : Problem) (hP : P.update = PruneKind.triangleInequality.update) (a b : Rat)
    (ha : P.alpha = some a) (hab : a ≤ b)
    (fuel : Nat) (cur : Rat) (hc : cur ≤ b) (s s' : State) (hi : Inv P s) (h : Tri P b s)
    (hr : rounds P fuel cur s = some s') : Tri P b s' := by
  induction fuel generalizing cur s with
  | zero => simp [rounds] at hr
  | succ fuel ih =>
    rw [rounds] at hr
    split at hr
    · simp only at hr
      split at hr
      · simp only [Option.some.injEq] at hr; subst hr; exact tri_round P hP b _ hc s hi h
      · refine ih _ ?_ _ (inv_round P _ s hi) (tri_round P hP b _ hc s hi h) hr
        rw [ha, fmin]; exact le_trans (min_le_right _ _) hab
    · simp only [Option.some.injEq] at hr; subst hr; exact h

/-! ### What a finished pass means -/

theorem visit_factor_other (P : Problem) (alpha : Rat) (s : State) (i j : Nat) (h : j ≠ i) :
    (visit P alpha s i).factor j = s.factor j := by
  unfold visit
  split
  · rfl
  · split
    · rfl
    · split
      · simp [Function.update_of_ne h]
      · simp only; split <;> simp [Function.update_of_ne h]

theorem visit_prefix (P : Problem) (alpha : Rat) (s : State) (i : Nat) :
    ∃ t, (visit P alpha s i).chosen = s.chosen ++ t := by
  unfold visit
  split
  · exact ⟨[], by simp⟩
  · split
    · exact ⟨[], by simp⟩
    · split
      · exact ⟨[], by simp⟩
      · simp only; split
        · exact ⟨[], by simp⟩
        · exact ⟨[i], rfl⟩

theorem visit_done (P : Problem) (alpha : Rat) (s : State) (i : Nat)
    (h : (visit P alpha s i).chosen.length < P.degree) : (alpha : Factor) < (visit P alpha s i).factor i := by
  unfold visit at h ⊢
  split
  · rename_i hd; rw [if_pos hd] at h; omega
  · split
    · assumption
    · split
      · simp
      · simp only; split
        · simpa
        · simp

theorem round_done (P : Problem) (alpha : Rat) (s : State)
    (h : (round P alpha s).chosen.length < P.degree) : ∀ i < P.n, (alpha : Factor) < (round P alpha s).factor i := by
  have := foldl_range_induct (visit P alpha)
    (fun m s => s.chosen.length < P.degree → ∀ i < m, (alpha : Factor) < s.factor i) P.n s
    (by intro _ i hi; omega)
    (by
      intro m s hm ih hlen i hi
      by_cases him : i = m
      · subst him; exact visit_done P alpha s i hlen
      · rw [visit_factor_other P alpha s m i him]
        apply ih _ i (by omega)
        obtain ⟨t, ht⟩ := visit_prefix P alpha s m
        rw [ht] at hlen; simp at hlen; omega)
  exact this h

theorem round_prefix (P : Problem) (alpha : Rat) (s : State) :
    ∃ t, (round P alpha s).chosen = s.chosen ++ t := by
  refine foldl_range_induct (visit P alpha) (fun _ s' => ∃ t, s'.chosen = s.chosen ++ t) P.n s ⟨[], by simp⟩ ?_
  rintro m s' _ ⟨t, ht⟩
  obtain ⟨t', ht'⟩ := visit_prefix P alpha s' m
  exact ⟨t ++ t', by rw [ht', ht, List.append_assoc]⟩

theorem rounds_prefix (P : Problem) (fuel : Nat) (cur : Rat) (s s' : State)
    (hr : rounds P fuel cur s = some s') : ∃ t, s'.chosen = s.chosen ++ t := by
  induction fuel generalizing cur s with
  | zero => simp [rounds] at hr
  | succ fuel ih =>
    rw [rounds] at hr
    split at hr
    · simp only at hr
      split at hr
      · simp only [Option.some.injEq] at hr; subst hr; exact round_prefix P _ s
      · obtain ⟨t, ht⟩ := ih _ _ hr
        obtain ⟨t', ht'⟩ := round_prefix P cur s
        exact ⟨t' ++ t, by rw [ht, ht', List.append_assoc]⟩
    · simp only [Option.some.injEq] at hr; subst hr; exact ⟨[], by simp⟩

theorem rounds_done (P : Problem) (a : Rat) (ha : P.alpha = some a) (fuel : Nat) (cur : Rat) (s s' : State)
    (hr : rounds P fuel cur s = some s') (h : s'.chosen.length < P.degree) :
    ∀ i < P.n, (a : Factor) < s'.factor i := by
  induction fuel generalizing cur s with
  | zero => simp [rounds] at hr
  | succ fuel ih =>
    rw [rounds] at hr
    split at hr
    · simp only at hr
      split at hr
      · rename_i hc
        rw [ha] at hc
        simp only [Option.some.injEq] at hr hc; subst hr; subst hc; exact round_done P _ s h
      · exact ih _ _ hr
    · simp only [Option.some.injEq] at hr; subst hr; omega

/-! ### The closest usable candidate is chosen first -/

theorem round_first (P : Problem) (alpha : Rat) (hal : 0 ≤ alpha) (i0 : Nat) (hi0 : i0 < P.n)
    (hu : P.usable i0 = true) (hbefore : ∀ j < i0, P.usable j = false) (hd : 0 < P.degree) :
    ∃ t, (round P alpha State.init).chosen = i0 :: t := by
  have := foldl_range_induct (visit P alpha)
    (fun m s => (m ≤ i0 → s.chosen = [] ∧ ∀ i, m ≤ i → s.factor i = 0) ∧
      (i0 < m → ∃ t, s.chosen = i0 :: t)) P.n State.init
    (by simp [State.init])
    (by
      intro m s hm ⟨h1, h2⟩
      refine ⟨?_, ?_⟩
      · intro hle
        obtain ⟨hc, hf⟩ := h1 (by omega)
        have hum := hbefore m (by omega)
        have hv : visit P alpha s m = { s with factor := Function.update s.factor m ⊤ } := by
          unfold visit
          rw [if_neg (by rw [hc]; simp; omega), if_neg (by rw [hf m (Nat.le_refl m)]; simpa using hal), if_pos hum]
        rw [hv]
        refine ⟨hc, fun i hi => ?_⟩
        simp only [Function.update_of_ne (show i ≠ m by omega)]
        exact hf i (by omega)
      · intro hlt
        by_cases hm0 : m = i0
        · subst hm0
          obtain ⟨hc, hf⟩ := h1 (Nat.le_refl m)
          refine ⟨[], ?_⟩
          unfold visit
          rw [if_neg (by rw [hc]; simp; omega), if_neg (by rw [hf m (Nat.le_refl m)]; simpa using hal), if_neg (by simp [hu])]
          simp only [hc, List.drop_nil, checkAgainst, hf m (Nat.le_refl m)]
          rw [if_neg (by simpa using hal)]
          simp
        · obtain ⟨t, ht⟩ := h2 (by omega)
          obtain ⟨t', ht'⟩ := visit_prefix P alpha s m
          exact ⟨t ++ t', by rw [ht', ht]; rfl⟩)
  exact this.2 hi0

theorem rounds_first (P : Problem) (i0 : Nat) (hi0 : i0 < P.n)
    (hu : P.usable i0 = true) (hbefore : ∀ j < i0, P.usable j = false) (hd : 0 < P.degree)
    (fuel : Nat) (s' : State) (hr : rounds P fuel 1 State.init = some s') :
    ∃ t, s'.chosen = i0 :: t := by
  obtain ⟨t, ht⟩ := round_first P 1 (by norm_num) i0 hi0 hu hbefore hd
  cases fuel with
  | zero => simp [rounds] at hr
  | succ fuel =>
    rw [rounds, if_pos (by simpa [State.init] using hd)] at hr
    simp only at hr
    split at hr
    · simp only [Option.some.injEq] at hr; subst hr; exact ⟨t, ht⟩
    · obtain ⟨t', ht'⟩ := rounds_prefix P _ _ _ _ hr
      exact ⟨t ++ t', by rw [ht', ht]; rfl⟩

end Verif.Graph
