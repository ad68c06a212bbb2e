import Verif.AsyncTools.Model
import Verif.AsyncTools.Spec
import Mathlib.Tactic.Ring
import Mathlib.Tactic.Linarith
import Mathlib.Data.List.Nodup
import Mathlib.Data.Nat.ModEq

set_option linter.unusedSimpArgs false

/-! Helper lemmas; the property theorems are in `Props.lean`. -/

namespace Verif.AsyncTools

/-! ## C27 partition -/

/-- Endpoint function: the first index of task `j` (also defined for `j = ntasks`). -/
def bound (n t j : Nat) : Nat := j * (n / t) + min j (n % t)

theorem impl_eq {n t j : Nat} :
    partitionImpl n t j = (bound n t j, bound n t (j + 1)) := by
  have hm : n - n / t * t = n % t := by
    have := Nat.div_add_mod n t
    rw [Nat.mul_comm] at this; omega
  unfold partitionImpl bound
  simp only [hm]
  generalize n / t = k
  generalize n % t = m
  split
  · rename_i h
    have h1 : min j m = m := by omega
    have h2 : min (j+1) m = m := by omega
    rw [h1, h2]
    obtain ⟨d, rfl⟩ : ∃ d, j = m + d := ⟨j - m, by omega⟩
    have : m + d - m = d := by omega
    rw [this]
    ext <;> simp <;> ring
  · rename_i h
    have h1 : min j m = j := by omega
    have h2 : min (j+1) m = j + 1 := by omega
    rw [h1, h2]
    ext <;> simp <;> ring

theorem bound_mono {n t a b : Nat} (h : a ≤ b) : bound n t a ≤ bound n t b := by
  unfold bound
  have := Nat.mul_le_mul_right (n / t) h
  omega

theorem bound_last {n t : Nat} (ht : 0 < t) : bound n t t = n := by
  unfold bound
  have := Nat.div_add_mod n t
  have := Nat.mod_lt n ht
  have : min t (n % t) = n % t := by omega
  rw [this]; omega

/-! ## C29 chunks -/

theorem chunks_aux {T : Type} (cs : Nat) (hcs : 0 < cs) :
    ∀ (k : Nat) (s : List T), s.length ≤ cs * k →
    ((List.range k).map fun c => (s.drop (cs * c)).take (min (cs * c + cs) s.length - cs * c)).flatten
      = s := by
  intro k
  induction k with
  | zero => intro s hs; simp at hs; simp [hs]
  | succ k ih =>
    intro s hs
    rw [List.range_succ_eq_map]
    simp only [List.map_cons, List.map_map, List.flatten_cons]
    have h2 : (List.map ((fun c => List.take (min (cs * c + cs) s.length - cs * c) (List.drop (cs * c) s)) ∘ Nat.succ) (List.range k))
        = (List.range k).map fun c => ((s.drop cs).drop (cs * c)).take (min (cs * c + cs) (s.drop cs).length - cs * c) := by
      apply List.map_congr_left
      intro c _
      simp only [Function.comp, List.drop_drop, List.length_drop, Nat.succ_eq_add_one, Nat.mul_add, Nat.mul_one]
      have : cs * c + cs = cs + cs * c := by omega
      rw [this]
      congr 1
      omega
    rw [h2, ih (s.drop cs) (by simp; rw [Nat.mul_succ] at hs; omega)]
    simp only [Nat.mul_zero, Nat.zero_add, List.drop_zero, Nat.sub_zero]
    by_cases h : cs ≤ s.length
    · rw [Nat.min_eq_left h, List.take_append_drop]
    · have : s.length ≤ cs := by omega
      rw [Nat.min_eq_right this, List.take_length, List.drop_eq_nil_of_le this, List.append_nil]

/-! ## C28 around -/

/-- The index of the `k`-th item the iterator should produce: the window starts `half` places left
of `i` (circularly) and jumps over `i` itself after `half` items. -/
def windowIndex (n i half k : Nat) : Nat :=
  (i + (n - half) + k + (if half ≤ k then 1 else 0)) % n

theorem inc_fst {T : Type} (a : Around T) : a.inc.1 = a.position := by
  unfold Around.inc; simp only; split <;> rfl

theorem inc_snd {T : Type} (a : Around T) (h : a.position < a.slice.length) :
    a.inc.2 = { a with position := (a.position + 1) % a.slice.length } := by
  unfold Around.inc
  simp only
  split
  · rename_i h'; simp [h']
  · rename_i h'
    rw [Nat.mod_eq_of_lt (by omega)]

theorem collect_none {T : Type} (a : Around T) (h : a.remaining = 0) : a.collect = [] := by
  rw [Around.collect]; split
  · rfl
  · rename_i h'; simp [Around.next, h] at h'

theorem mod_eq_skip {n i half k : Nat} (hi : i < n) (hk : k < n) (hh : half < n) :
    (i + (n - half) + k) % n = i ↔ k = half := by
  constructor
  · intro h
    have h1 : (i + ((n - half) + k)) % n = i % n := by
      rw [Nat.mod_eq_of_lt hi, ← h]; congr 1; omega
    have h2 : ((n - half) + k) % n = 0 := by
      have : (i + ((n - half) + k)) ≡ i + 0 [MOD n] := h1
      exact Nat.ModEq.add_left_cancel' i this
    by_cases hc : (n - half) + k < n
    · rw [Nat.mod_eq_of_lt hc] at h2; omega
    · rw [Nat.mod_eq_sub_mod (by omega), Nat.mod_eq_of_lt (by omega)] at h2; omega
  · rintro rfl
    have : i + (n - k) + k = i + n := by omega
    rw [this, Nat.add_mod_right, Nat.mod_eq_of_lt hi]

theorem collect_window {T : Type} (s : List T) (i half len : Nat) (hi : i < s.length)
    (hlen : len < s.length) (hh : half = (len + 1) / 2) :
    ∀ (r k : Nat), r + k = len → 
      (Around.collect { slice := s, skip := i, remaining := r,
                        position := (i + (s.length - half) + k + (if half < k then 1 else 0)) % s.length })
      = (List.range r).map fun j => s[windowIndex s.length i half (k + j)]? := by
  intro r
  induction r with
  | zero => intro k _; rw [collect_none _ rfl]; rfl
  | succ r ih =>
    intro k hk
    have hn : 0 < s.length := by omega
    have hpos : ∀ x, x % s.length < s.length := fun x => Nat.mod_lt _ hn
    rw [Around.collect]
    -- compute next
    have hnext : Around.next { slice := s, skip := i, remaining := r + 1, position := (i + (s.length - half) + k + (if half < k then 1 else 0)) % s.length }
        = some (s[windowIndex s.length i half k]?,
            { slice := s, skip := i, remaining := r, position := (i + (s.length - half) + (k+1) + (if half < k+1 then 1 else 0)) % s.length }) := by
      unfold Around.next
      simp only [Nat.add_one_ne_zero, if_false, Nat.add_sub_cancel]
      rw [inc_fst]
      simp only
      by_cases hkh : k = half
      · -- skip taken
        subst hkh
        simp only [Nat.lt_irrefl, if_false, Nat.add_zero]
        rw [if_pos ((mod_eq_skip hi (by omega) (by omega)).2 rfl)]
        rw [inc_snd _ (hpos _), inc_snd _ (hpos _), inc_fst]
        have e1 : ((i + (s.length - k) + k) % s.length + 1) % s.length
            = windowIndex s.length i k k := by
          unfold windowIndex; simp
        simp only [e1]
        congr 3
        unfold windowIndex
        simp only [Nat.le_refl, if_true, Nat.mod_add_mod]
        rw [if_pos (by omega)]
        congr 1
      · have hne : (i + (s.length - half) + k + (if half < k then 1 else 0)) % s.length ≠ i := by
          split
          · rename_i hlt
            intro hc
            have := (mod_eq_skip (k := k + 1) hi (by omega) (by omega : half < s.length)).1 (by rw [← Nat.add_assoc]; exact hc)
            omega
          · intro hc
            exact hkh ((mod_eq_skip hi (by omega) (by omega)).1 (by simpa using hc))
        rw [if_neg hne, inc_snd _ (hpos _)]
        simp only [inc_fst]
        have e1 : (i + (s.length - half) + k + (if half < k then 1 else 0)) % s.length
            = windowIndex s.length i half k := by
          unfold windowIndex
          congr 2
          by_cases h : half < k
          · rw [if_pos h, if_pos (by omega)]
          · rw [if_neg h, if_neg (by omega)]
        rw [e1]
        congr 3
        unfold windowIndex
        rw [Nat.mod_add_mod]
        congr 1
        by_cases h : half < k
        · rw [if_pos (by omega : half ≤ k), if_pos (by omega)]; omega
        · rw [if_neg (by omega : ¬ half ≤ k), if_neg (by omega)]; omega
    split
    · rename_i h; rw [hnext] at h; cases h
    · rename_i x b h
      rw [hnext] at h
      simp only [Option.some.injEq, Prod.mk.injEq] at h
      obtain ⟨rfl, rfl⟩ := h
      rw [ih (k+1) (by omega), List.range_succ_eq_map, List.map_cons, List.map_map]
      congr 1
      apply List.map_congr_left
      intro j _
      simp only [Function.comp]
      congr 2
      omega

theorem around_eq {T : Type} (s : List T) (i len : Nat) (hs : s ≠ []) :
    around s i len = (List.range (min len (s.length - 1))).map fun k =>
      s[windowIndex s.length (min i (s.length - 1)) ((min len (s.length - 1) + 1) / 2) k]? := by
  have hn : 0 < s.length := List.length_pos_iff.2 hs
  unfold around Around.new
  rw [if_neg (by omega)]
  have := collect_window s (min i (s.length - 1)) ((min len (s.length - 1) + 1) / 2)
    (min len (s.length - 1)) (by omega) (by omega) rfl (min len (s.length - 1)) 0 (by omega)
  simp only [Nat.zero_add] at this
  rw [← this]
  congr 2
  rw [if_neg (by omega)]
  simp only [Nat.add_zero]
  split
  · rename_i h
    have e : min i (s.length - 1) + (s.length - (min len (s.length - 1) + 1) / 2) =
        (min i (s.length - 1) - (min len (s.length - 1) + 1) / 2) + s.length := by omega
    rw [e, Nat.add_mod_right, Nat.mod_eq_of_lt (by omega)]
  · rename_i h
    have e : min i (s.length - 1) + (s.length - (min len (s.length - 1) + 1) / 2) =
      s.length - ((min len (s.length - 1) + 1) / 2 - min i (s.length - 1)) := by omega
    rw [e, Nat.mod_eq_of_lt (by omega)]

theorem windowIndex_inj {n i half a b : Nat} (hi : i < n) (hh : half < n)
    (ha : a < n - 1) (hb : b < n - 1) (h : windowIndex n i half a = windowIndex n i half b) : a = b := by
  unfold windowIndex at h
  have h' : (a + (if half ≤ a then 1 else 0)) ≡ (b + (if half ≤ b then 1 else 0)) [MOD n] := by
    have : i + (n - half) + (a + (if half ≤ a then 1 else 0)) ≡
        i + (n - half) + (b + (if half ≤ b then 1 else 0)) [MOD n] := by
      simpa [Nat.ModEq, Nat.add_assoc] using h
    exact Nat.ModEq.add_left_cancel' _ this
  have h2 : (a + (if half ≤ a then 1 else 0)) = (b + (if half ≤ b then 1 else 0)) := by
    have ha' : (a + (if half ≤ a then 1 else 0)) < n := by split <;> omega
    have hb' : (b + (if half ≤ b then 1 else 0)) < n := by split <;> omega
    rw [Nat.ModEq, Nat.mod_eq_of_lt ha', Nat.mod_eq_of_lt hb'] at h'
    exact h'
  split at h2 <;> split at h2 <;> omega

/-! ## C26 DynamicBalancer -/

def pendingCount {T : Nat} (p : Fin T → Bool) : Nat :=
  (Finset.univ.filter fun t => p t = true).card

theorem pendingCount_le {T : Nat} (p : Fin T → Bool) : pendingCount p ≤ T := by
  have := Finset.card_le_univ (Finset.univ.filter fun t => p t = true)
  simpa [pendingCount] using this

theorem pendingCount_set {T : Nat} (p : Fin T → Bool) (t : Fin T) (h : p t = false) :
    pendingCount (Function.update p t true) = pendingCount p + 1 := by
  unfold pendingCount
  have : (Finset.univ.filter fun u => Function.update p t true u = true) =
      insert t (Finset.univ.filter fun u => p u = true) := by
    ext u
    by_cases hu : u = t
    · subst hu; simp
    · simp [Function.update_of_ne hu, hu]
  rw [this, Finset.card_insert_of_notMem (by simp [h])]

theorem pendingCount_clear {T : Nat} (p : Fin T → Bool) (t : Fin T) (h : p t = true) :
    pendingCount (Function.update p t false) + 1 = pendingCount p := by
  have := pendingCount_set (Function.update p t false) t (by simp)
  rw [Function.update_idem] at this
  rw [← this]
  congr 1
  rw [← h, Function.update_eq_self]

structure Inv {T : Nat} (len : Nat) (s : Balancer T) : Prop where
  alive : s.aborted = false
  count : s.current = (handedOut s.log).length + pendingCount s.pending
  le : (handedOut s.log).length ≤ len
  full : 0 < pendingCount s.pending → (handedOut s.log).length = len
  order : handedOut s.log = List.range (handedOut s.log).length
  none_full : ∀ pre t post, s.log = pre ++ .exhausted t :: post → (handedOut pre).length = len

theorem handedOut_append {T : Nat} (a b : List (Event T)) :
    handedOut (a ++ b) = handedOut a ++ handedOut b := by
  simp [handedOut, List.filterMap_append]

theorem handedOut_none {T : Nat} (a : List (Event T)) (t : Fin T) :
    handedOut (a ++ [.exhausted t]) = handedOut a := by
  rw [handedOut_append]; simp [handedOut]

theorem handedOut_some {T : Nat} (a : List (Event T)) (t : Fin T) (i : Nat) :
    handedOut (a ++ [.yielded t i]) = handedOut a ++ [i] := by
  rw [handedOut_append]; simp [handedOut]

theorem inv_step {T : Nat} {len : Nat} (hW : len + T < W) {s : Balancer T}
    (h : Inv len s) (t : Fin T) : Inv len (s.step len t) := by
  have hp := pendingCount_le s.pending
  have hT : 0 < T := Nat.lt_of_le_of_lt (Nat.zero_le _) t.2
  have split_none : ∀ (e : Event T) pre t' post, s.log ++ [e] = pre ++ .exhausted t' :: post →
      (post = [] ∧ pre = s.log ∧ e = .exhausted t') ∨
      ∃ post', s.log = pre ++ .exhausted t' :: post' := by
    intro e pre t' post heq
    rcases List.eq_nil_or_concat post with hpost | ⟨post', x, hpost⟩
    · left
      subst hpost
      have := List.append_inj' heq (by simp)
      simp at this
      exact ⟨rfl, this.1.symm, this.2⟩
    · right
      refine ⟨post', ?_⟩
      subst hpost
      rw [List.concat_eq_append, ← List.cons_append, ← List.append_assoc] at heq
      exact (List.append_inj' heq (by simp)).1
  unfold Balancer.step
  rw [if_neg (by simp [h.alive])]
  split
  · rename_i hpt
    have hc := pendingCount_clear s.pending t hpt
    have hfull := h.full (by omega)
    refine ⟨h.alive, ?_, ?_, ?_, ?_, ?_⟩
    · simp only [handedOut_none]
      have h2 := h.count
      have e : s.current + W - 1 = (s.current - 1) + W := by omega
      rw [e, Nat.add_mod_right, Nat.mod_eq_of_lt (by omega)]
      omega
    · simp only [handedOut_none]; exact h.le
    · intro _; simp only [handedOut_none]; exact hfull
    · simp only [handedOut_none]; exact h.order
    · intro pre t' post heq
      rcases split_none _ _ _ _ heq with ⟨-, rfl, -⟩ | ⟨post', hx⟩
      · exact hfull
      · exact h.none_full _ _ _ hx
  · rename_i hpt
    have hpt : s.pending t = false := by simpa using hpt
    simp only
    have hcnt := h.count
    have hle := h.le
    have hlt : s.current + 1 < W := by
      by_cases h0 : 0 < pendingCount s.pending
      · have := h.full h0
        have : pendingCount s.pending < T := by
          rcases Nat.lt_or_ge (pendingCount s.pending) T with h' | h'
          · exact h'
          · have h3 := pendingCount_set s.pending t hpt
            have h4 := pendingCount_le (Function.update s.pending t true)
            omega
        omega
      · omega
    split
    · rename_i hi
      have h0 : pendingCount s.pending = 0 := by
        by_contra hne
        have := h.full (by omega)
        omega
      refine ⟨h.alive, ?_, ?_, ?_, ?_, ?_⟩
      · simp only [handedOut_some, List.length_append, List.length_singleton]
        rw [Nat.mod_eq_of_lt hlt]
        omega
      · simp only [handedOut_some, List.length_append, List.length_singleton]
        omega
      · intro hx; simp only at hx; omega
      · simp only [handedOut_some]
        rw [List.length_append, List.length_singleton, List.range_succ, ← h.order]
        congr 2; omega
      · intro pre t' post heq
        rcases split_none _ _ _ _ heq with ⟨-, -, hx⟩ | ⟨post', hx⟩
        · cases hx
        · exact h.none_full _ _ _ hx
    · rename_i hi
      rw [if_neg (by omega)]
      have hs := pendingCount_set s.pending t hpt
      have hfull : (handedOut s.log).length = len := by
        by_cases h0 : 0 < pendingCount s.pending
        · exact h.full h0
        · omega
      refine ⟨h.alive, ?_, h.le, fun _ => hfull, h.order, h.none_full⟩
      simp only
      rw [Nat.mod_eq_of_lt hlt, hs]; omega

theorem inv_run {T : Nat} {len : Nat} (hW : len + T < W) (sched : List (Fin T)) :
    Inv len (Balancer.run len sched) := by
  unfold Balancer.run
  have h0 : Inv len (Balancer.new T) := by
    refine ⟨rfl, ?_, by simp [Balancer.new, handedOut], ?_, by simp [Balancer.new, handedOut], ?_⟩
    · simp [Balancer.new, handedOut, pendingCount]
    · intro h; simp [Balancer.new, pendingCount] at h
    · intro pre t post h; simp [Balancer.new] at h
  generalize Balancer.new T = s at h0
  induction sched generalizing s with
  | nil => exact h0
  | cons t ts ih => exact ih _ (inv_step hW h0 t)

end Verif.AsyncTools
