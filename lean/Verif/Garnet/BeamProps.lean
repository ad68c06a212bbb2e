import Verif.Garnet.BeamLemmas

/-
C114: what a search of a Garnet vector set learns when it expands nodes, with and without a filter, and what pruning
gets.
-/
namespace Verif.Garnet.Beam

variable {V D σ O β : Type}

/-! ### Specification -/

/-- The id is a neighbor of a node of the beam. -/
def Adjacent (x : Data V) (beam : List Nat) (id : Nat) : Prop := ∃ n ∈ beam, ∃ l, x.neighbors n = some l ∧ id ∈ l

/-- The vector of an id: the start point is cached, all others are stored. -/
def VectorOf (x : Data V) (id : Nat) (v : V) : Prop := if id = 0 then x.start = some v else x.vector id = some v

/-- The filter accepts the attributes of the id; an id without attributes has empty ones. -/
def Accepts (filter : List Nat → Bool) (x : Data V) (id : Nat) : Prop :=
  filter (match x.attrs id with | none => [] | some a => a) = true

/-! ### Lemmas -/

theorem adjacent_cons (x : Data V) (n : Nat) (ns : List Nat) (id : Nat) :
    Adjacent x (n :: ns) id ↔ id ∈ nbrs x n ∨ Adjacent x ns id := by
  unfold Adjacent nbrs
  constructor
  · rintro ⟨m, hm, l, hl, hid⟩
    rcases List.mem_cons.1 hm with rfl | hm
    · exact .inl (by rw [hl]; exact hid)
    · exact .inr ⟨m, hm, l, hl, hid⟩
  · rintro (h | ⟨m, hm, l, hl, hid⟩)
    · cases hx : x.neighbors n with
      | none => rw [hx] at h; cases h
      | some l => exact ⟨n, List.mem_cons_self, l, hx, by rw [hx] at h; exact h⟩
    · exact ⟨m, List.mem_cons_of_mem _ hm, l, hl, hid⟩

theorem accepts_iff (filter : List Nat → Bool) (x : Data V) (id : Nat) :
    Accepts filter x id ↔ matching filter x.attrs id = true := by
  unfold Accepts matching
  cases x.attrs id <;> rfl

/-- The vector of an id. -/
def look (x : Data V) (id : Nat) : Option V := if id = 0 then x.start else x.vector id

theorem look_iff (x : Data V) (id : Nat) (v : V) : look x id = some v ↔ VectorOf x id v := by
  unfold look VectorOf
  split <;> rfl

theorem withVector_append (vec : Nat → Option V) (f : Nat → V → O) (a b : List Nat) :
    withVector vec f (a ++ b) = withVector vec f a ++ withVector vec f b := by simp [withVector]

theorem withVector_congr {vec vec' : Nat → Option V} {f f' : Nat → V → O} {l : List Nat}
    (h : ∀ id ∈ l, (vec id).map (f id) = (vec' id).map (f' id)) : withVector vec f l = withVector vec' f' l := by
  induction l with
  | nil => rfl
  | cons a l ih =>
    have h1 := h a List.mem_cons_self
    have h2 := ih fun id hid => h id (List.mem_cons_of_mem _ hid)
    unfold withVector at h2 ⊢
    rw [List.filterMap_cons, List.filterMap_cons, h1, h2]

theorem withVector_look (x : Data V) {v : V} (hv : x.start = some v) (f : Nat → V → O) (l : List Nat) :
    (l.filter (· = 0)).map (fun _ => f 0 v) ++ withVector x.vector f (l.filter (· ≠ 0)) =
      withVector (look x) f (l.filter (· = 0) ++ l.filter (· ≠ 0)) := by
  rw [withVector_append]
  congr 1
  · induction l with
    | nil => rfl
    | cons a l ih =>
      by_cases h : a = 0
      · simp [h, withVector, look, hv] at ih ⊢
        exact ih
      · simpa [h] using ih
  · apply withVector_congr
    intro id hid
    have : id ≠ 0 := by simpa using (List.mem_filter.1 hid).2
    simp [look, this]

/-- Plain and filtered expansions report the same ids. -/
theorem walk (dist : V → D) (filter : List Nat → Bool) (x : Data V) {v : V} (hv : x.start = some v) (W : List Nat)
    (beam : List Nat) :
    ∃ W' L, (∀ out, expandBeam dist x notIn W beam out =
        some (true, W', out ++ withVector (look x) (fun id v => (id, dist v)) L)) ∧
      (∀ out, expandFiltered dist filter x notIn W beam out =
        some (true, W', out ++
          withVector (look x) (fun id v => (id, decide (id ≠ 0) && matching filter x.attrs id, dist v)) L)) ∧
      L.Nodup ∧ (∀ id, id ∈ L ↔ id ∉ W ∧ Adjacent x beam id) ∧ ∀ id, id ∈ W' ↔ id ∈ W ∨ Adjacent x beam id := by
  induction beam generalizing W with
  | nil =>
    refine ⟨W, [], fun out => ?_, fun out => ?_, List.nodup_nil, fun id => ?_, fun id => ?_⟩
    · simp [expandBeam, withVector]
    · simp [expandFiltered, withVector]
    · simp [Adjacent]
    · simp [Adjacent]
  | cons n ns ih =>
    obtain ⟨k1, k2, k3⟩ := keep_notIn W (nbrs x n)
    obtain ⟨W', L, h1, h2, h3, h4, h5⟩ := ih (keep notIn.evalMut W (nbrs x n)).2
    generalize hT : (keep notIn.evalMut W (nbrs x n)).1 = T at k1 k2
    have hmem : ∀ id, id ∈ T.filter (· = 0) ++ T.filter (· ≠ 0) ↔ id ∈ T := by
      intro id
      by_cases h : id = 0 <;> simp [h]
    refine ⟨W', (T.filter (· = 0) ++ T.filter (· ≠ 0)) ++ L, fun out => ?_, fun out => ?_, ?_, fun id => ?_, fun id => ?_⟩
    · rw [expandBeam_cons_some dist x notIn W n ns out hv, h1, hT]
      rw [withVector_append, ← withVector_look x hv]
      simp
    · rw [expandFiltered_cons_some dist filter x notIn W n ns out hv, h2, hT]
      rw [withVector_append, ← withVector_look x hv]
      have : withVector x.vector (fun id v => (id, matching filter x.attrs id, dist v)) (T.filter (· ≠ 0)) =
          withVector x.vector (fun id v => (id, decide (id ≠ 0) && matching filter x.attrs id, dist v))
            (T.filter (· ≠ 0)) := by
        apply withVector_congr
        intro id hid
        have : id ≠ 0 := by simpa using (List.mem_filter.1 hid).2
        simp [this]
      rw [this]
      simp
    · refine List.nodup_append.2 ⟨List.nodup_append.2 ⟨k1.filter _, k1.filter _, ?_⟩, h3, ?_⟩
      · intro a ha b hb e
        have h1 : a = 0 := by simpa using (List.mem_filter.1 ha).2
        have h2 : b ≠ 0 := by simpa using (List.mem_filter.1 hb).2
        exact h2 (e ▸ h1)
      · intro a ha b hb e
        have := ((h4 b).1 hb).1
        rw [k3] at this
        exact this (.inr (e ▸ ((k2 a).1 ((hmem a).1 ha)).1))
    · rw [List.mem_append, hmem, k2, h4, k3, adjacent_cons]
      constructor
      · rintro (⟨a, b⟩ | ⟨a, b⟩)
        · exact ⟨b, .inl a⟩
        · exact ⟨fun h => a (.inl h), .inr b⟩
      · rintro ⟨a, b⟩
        by_cases h : id ∈ nbrs x n
        · exact .inl ⟨h, a⟩
        · exact .inr ⟨fun o => o.elim a h, b.resolve_left h⟩
    · rw [h5, k3, adjacent_cons, or_assoc]

theorem mem_withVector {vec : Nat → Option V} {f : Nat → V → O} {l : List Nat} {o : O} :
    o ∈ withVector vec f l ↔ ∃ id ∈ l, ∃ v, vec id = some v ∧ f id v = o := by
  simp [withVector, List.mem_filterMap]

theorem withVector_nodup (vec : Nat → Option V) (f : Nat → V → O) (fst : O → Nat) (hf : ∀ id v, fst (f id v) = id)
    {l : List Nat} (h : l.Nodup) : ((withVector vec f l).map fst).Nodup := by
  induction l with
  | nil => exact List.nodup_nil
  | cons a l ih =>
    obtain ⟨h1, h2⟩ := List.nodup_cons.1 h
    cases hv : vec a with
    | none => simpa [withVector, hv] using ih h2
    | some v =>
      have : withVector vec f (a :: l) = f a v :: withVector vec f l := by simp [withVector, hv]
      rw [this, List.map_cons, hf]
      refine List.nodup_cons.2 ⟨fun hm => ?_, ih h2⟩
      obtain ⟨o, ho, e⟩ := List.mem_map.1 hm
      obtain ⟨id, hid, w, _, rfl⟩ := mem_withVector.1 ho
      rw [hf] at e
      exact h1 (e ▸ hid)

/-- The accept-only expansion. -/
theorem walkAccept (dist : V → D) (filter : List Nat → Bool) (x : Data V) (W : List Nat) (beam : List Nat) :
    ∃ W' L, (∀ out, expandAccept dist filter x notIn W beam out =
        some (true, W', out ++ withVector x.vector (fun id v => (id, dist v)) L)) ∧
      L.Nodup ∧ (∀ id, id ∈ L ↔ id ∉ W ∧ id ≠ 0 ∧ matching filter x.attrs id = true ∧ Adjacent x beam id) ∧
      ∀ id, id ∈ W' ↔ id ∈ W ∨ (id ≠ 0 ∧ matching filter x.attrs id = true ∧ Adjacent x beam id) := by
  induction beam generalizing W with
  | nil =>
    refine ⟨W, [], fun out => ?_, List.nodup_nil, fun id => ?_, fun id => ?_⟩
    · simp [expandAccept, withVector]
    · simp [Adjacent]
    · simp [Adjacent]
  | cons n ns ih =>
    have hpick : ∀ id, id ∈ ((nbrs x n).filter fun id => id ≠ 0 ∧ notIn.eval W id = true).filter
        (matching filter x.attrs) ↔ (id ∈ nbrs x n ∧ id ≠ 0 ∧ id ∉ W) ∧ matching filter x.attrs id = true := by
      intro id
      simp only [notIn, List.mem_filter, decide_eq_true_eq, Bool.not_eq_true', List.contains_eq_mem, decide_eq_false_iff_not]
    generalize hP : ((nbrs x n).filter fun id => id ≠ 0 ∧ notIn.eval W id = true).filter
      (matching filter x.attrs) = P at hpick
    obtain ⟨k1, k2, k3⟩ := keep_notIn W P
    obtain ⟨W', L, h1, h3, h4, h5⟩ := ih (keep notIn.evalMut W P).2
    refine ⟨W', (keep notIn.evalMut W P).1 ++ L, fun out => ?_, ?_, fun id => ?_, fun id => ?_⟩
    · rw [expandAccept_cons, hP]
      have := h1 (out ++ withVector x.vector (fun id v => (id, dist v)) (keep notIn.evalMut W P).1)
      rw [withVector_append, ← List.append_assoc]
      exact this
    · refine List.nodup_append.2 ⟨k1, h3, fun a ha b hb e => ?_⟩
      have := ((h4 b).1 hb).1
      rw [k3] at this
      exact this (.inr (e ▸ ((k2 a).1 ha).1))
    · rw [List.mem_append, k2, h4, k3, hpick, adjacent_cons]
      constructor
      · rintro (⟨⟨⟨a, b, c⟩, d⟩, _⟩ | ⟨a, b, c, d⟩)
        · exact ⟨c, b, d, .inl a⟩
        · exact ⟨fun h => a (.inl h), b, c, .inr d⟩
      · rintro ⟨a, b, c, d⟩
        by_cases h : id ∈ nbrs x n
        · exact .inl ⟨⟨⟨h, b, a⟩, c⟩, a⟩
        · exact .inr ⟨fun o => o.elim a fun o => h o.1.1, b, c, d.resolve_left h⟩
    · rw [h5, k3, hpick, adjacent_cons]
      constructor
      · rintro ((a | ⟨⟨a, b, c⟩, d⟩) | ⟨a, b, c⟩)
        · exact .inl a
        · exact .inr ⟨b, d, .inl a⟩
        · exact .inr ⟨a, b, .inr c⟩
      · rintro (a | ⟨a, b, c⟩)
        · exact .inl (.inl a)
        · by_cases hw : id ∈ W
          · exact .inl (.inl hw)
          · rcases c with c | c
            · exact .inl (.inr ⟨⟨c, a, hw⟩, b⟩)
            · exact .inr ⟨a, b, c⟩

/-- The accepted entries of a filtered expansion, without the decision. -/
def accepted (out : List (Nat × Bool × D)) : List (Nat × D) :=
  out.filterMap fun o => if o.2.1 then some (o.1, o.2.2) else none

theorem accepted_append (a b : List (Nat × Bool × D)) : accepted (a ++ b) = accepted a ++ accepted b := by
  simp [accepted]

theorem same (dist : V → D) (filter : List Nat → Bool) (x : Data V) {v : V} (hv : x.start = some v) (beam : List Nat) :
    ∀ (W U : List Nat) (out : List (Nat × Bool × D)),
      (∀ id, id ≠ 0 → matching filter x.attrs id = true → (id ∈ W ↔ id ∈ U)) →
      ∃ W' U' out', expandFiltered dist filter x notIn W beam out = some (true, W', out') ∧
        expandAccept dist filter x notIn U beam (accepted out) = some (true, U', accepted out') ∧
        ∀ id, id ≠ 0 → matching filter x.attrs id = true → (id ∈ W' ↔ id ∈ U') := by
  induction beam with
  | nil => intro W U out h; exact ⟨W, U, out, rfl, rfl, h⟩
  | cons n ns ih =>
    intro W U out h
    rw [expandFiltered_cons_some dist filter x notIn W n ns out hv, expandAccept_cons]
    simp only
    let g : Nat → Bool := fun id => decide (id ≠ 0) && matching filter x.attrs id
    have hg : ∀ id, g id = true ↔ id ≠ 0 ∧ matching filter x.attrs id = true := by intro id; simp [g]
    -- The ids that the accept-only expansion keeps.
    have hP : ((nbrs x n).filter fun id => id ≠ 0 ∧ notIn.eval U id = true).filter (matching filter x.attrs) =
        ((nbrs x n).filter g).filter fun id => !U.contains id := by
      rw [List.filter_filter, List.filter_filter]
      apply List.filter_congr
      intro id _
      simp only [notIn, g]
      by_cases hU : id ∈ U <;> cases matching filter x.attrs id <;> by_cases h0 : id = 0 <;> simp [h0, hU]
    have hkeep : keep notIn.evalAccept U (((nbrs x n).filter g).filter fun id => !U.contains id) =
        keep notIn.evalMut U ((nbrs x n).filter g) := (keep_skip U _).symm
    have hagree := keep_agree g W U (nbrs x n) fun id hid => h id ((hg id).1 hid).1 ((hg id).1 hid).2
    have hacc : accepted (out ++ ((keep notIn.evalMut W (nbrs x n)).1.filter (· = 0)).map (fun _ => (0, false, dist v)) ++
          withVector x.vector (fun id v => (id, matching filter x.attrs id, dist v))
            ((keep notIn.evalMut W (nbrs x n)).1.filter (· ≠ 0))) =
        accepted out ++ withVector x.vector (fun id v => (id, dist v)) (keep notIn.evalMut U ((nbrs x n).filter g)).1 := by
      rw [accepted_append, accepted_append, ← hagree]
      have e1 : ∀ l : List Nat, accepted (l.map fun _ => (0, false, dist v)) = [] := by
        intro l
        induction l with
        | nil => rfl
        | cons a l ih => simp [accepted]
      have e2 : ∀ l : List Nat, accepted (withVector x.vector (fun id v => (id, matching filter x.attrs id, dist v))
          (l.filter (· ≠ 0))) = withVector x.vector (fun id v => (id, dist v)) (l.filter g) := by
        intro l
        induction l with
        | nil => rfl
        | cons a l ih =>
          by_cases h0 : a = 0
          · simpa [h0, g] using ih
          · cases hm : matching filter x.attrs a <;> cases hx : x.vector a <;>
              simp [h0, g, hm, hx, withVector, accepted] at ih ⊢ <;> exact ih
      rw [e1, e2, List.append_nil]
    rw [hP, hkeep, ← hacc]
    refine ih _ _ _ fun id h0 hm => ?_
    rw [(keep_notIn W (nbrs x n)).2.2, (keep_notIn U ((nbrs x n).filter g)).2.2, h id h0 hm, List.mem_filter, hg]
    simp [h0, hm]

/-- Without the decision. -/
def forget (o : Nat × Bool × D) : Nat × D := (o.1, o.2.2)

theorem forget_eq (dist : V → D) (filter : List Nat → Bool) (x : Data V) (p : Pred σ) (beam : List Nat) (s : σ)
    (out : List (Nat × Bool × D)) :
    (expandFiltered dist filter x p s beam out).map (fun r => (r.1, r.2.1, r.2.2.map forget)) =
      expandBeam dist x p s beam (out.map forget) := by
  induction beam generalizing s out with
  | nil => rfl
  | cons n ns ih =>
    rw [expandFiltered, expandBeam]
    have hc := collect_forget p (x.start.map dist) (fun d => (0, false, d)) (fun d => (0, d)) forget (fun _ => rfl) s
      ((x.neighbors n).getD []) [] out
    obtain ⟨⟨r, _, hr⟩, _⟩ := collect_pairs p (x.start.map dist) (fun d => (0, false, d)) s
      ((x.neighbors n).getD []) [] out (by simp)
    rw [hc]
    simp only [pairs] at hr
    generalize collect p (x.start.map dist) (fun d => (0, false, d)) s ((x.neighbors n).getD []) [] out = c at hr
    obtain ⟨b, s', ids, o⟩ := c
    simp only at hr
    subst hr
    cases b with
    | false => rfl
    | true =>
      simp only
      rw [report_pairs (fun _ id v => some (id, dist v)) (fun id v => (id, dist v)) x.vector _ (fun _ _ _ _ => rfl)]
      by_cases he : pairs r = []
      · rw [if_pos he, ih, pairs_nil.1 he]
        simp
      · rw [if_neg he, decisions_pairs]
        simp only
        rw [report_pairs _ (fun id v => (id, matching filter x.attrs id, dist v)) x.vector]
        · simp only
          rw [ih]
          simp [List.map_filterMap, forget, Function.comp_def]
        · intro i id v h
          rw [List.getElem?_map, h]
          rfl

/-- All decisions of a filtered expansion are those of the filter. -/
theorem decided (dist : V → D) (filter : List Nat → Bool) (x : Data V) (p : Pred σ) (beam : List Nat) (s : σ)
    (out : List (Nat × Bool × D)) (hout : ∀ o ∈ out, o.2.1 = (decide (o.1 ≠ 0) && matching filter x.attrs o.1))
    {r : Bool × σ × List (Nat × Bool × D)} (h : expandFiltered dist filter x p s beam out = some r) :
    ∀ o ∈ r.2.2, o.2.1 = (decide (o.1 ≠ 0) && matching filter x.attrs o.1) := by
  induction beam generalizing s out with
  | nil => cases h; exact hout
  | cons n ns ih =>
    rw [expandFiltered] at h
    obtain ⟨⟨l, hl, hr⟩, hc⟩ := collect_pairs p (x.start.map dist) (fun d => (0, false, d)) s
      ((x.neighbors n).getD []) [] out (by simp)
    simp only [pairs] at hr hc
    generalize collect p (x.start.map dist) (fun d => (0, false, d)) s ((x.neighbors n).getD []) [] out = c at hr h hc
    obtain ⟨b, s', ids, o⟩ := c
    simp only at hr h hc
    subst hr
    have ho : ∀ o' ∈ o, o'.2.1 = (decide (o'.1 ≠ 0) && matching filter x.attrs o'.1) := by
      intro o' ho'
      rcases hc o' ho' with h | ⟨d, rfl⟩
      · exact hout o' h
      · simp
    cases b with
    | false => cases h; exact ho
    | true =>
      simp only at h
      by_cases he : pairs l = []
      · rw [if_pos he] at h
        exact ih _ _ ho h
      · rw [if_neg he, decisions_pairs] at h
        simp only at h
        rw [report_pairs _ (fun id v => (id, matching filter x.attrs id, dist v)) x.vector] at h
        · refine ih _ _ ?_ h
          intro o' ho'
          rcases List.mem_append.1 ho' with h | h
          · exact ho o' h
          · obtain ⟨id, hid, v, _, rfl⟩ := mem_withVector.1 h
            have : id ≠ 0 := fun e => hl (e ▸ hid)
            simp [this]
        · intro i id v h
          rw [List.getElem?_map, h]
          rfl

/-- Without a cached start point. -/
theorem walkNone (dist : V → D) (x : Data V) (hv : x.start = none) (beam : List Nat) :
    ∀ (W : List Nat) (out : List (Nat × D)), ∃ ok W' L, expandBeam dist x notIn W beam out =
        some (ok, W', out ++ withVector x.vector (fun id v => (id, dist v)) L) ∧
      L.Nodup ∧ (∀ id ∈ L, id ≠ 0 ∧ id ∉ W ∧ Adjacent x beam id) ∧
      (ok = true ↔ (0 ∈ W ∨ ¬ Adjacent x beam 0)) ∧
      (ok = true → ∀ id, id ∉ W → Adjacent x beam id → id ∈ L) := by
  induction beam with
  | nil =>
    intro W out
    exact ⟨true, W, [], by simp [expandBeam, withVector], List.nodup_nil, by simp, by simp [Adjacent], by simp [Adjacent]⟩
  | cons n ns ih =>
    intro W out
    obtain ⟨k1, k2, k3⟩ := keep_notIn W (nbrs x n)
    rcases expandBeam_cons_none dist x notIn W n ns out hv with ⟨h0, h⟩ | ⟨h0, s', h⟩
    · obtain ⟨ok, W', L, h1, h2, h3, h4, h5⟩ := ih (keep notIn.evalMut W (nbrs x n)).2
        (out ++ withVector x.vector (fun id v => (id, dist v)) (keep notIn.evalMut W (nbrs x n)).1)
      refine ⟨ok, W', (keep notIn.evalMut W (nbrs x n)).1 ++ L, ?_, ?_, ?_, ?_, ?_⟩
      · rw [h, h1, withVector_append, List.append_assoc]
      · refine List.nodup_append.2 ⟨k1, h2, fun a ha b hb e => ?_⟩
        have := (h3 b hb).2.1
        rw [k3] at this
        exact this (.inr (e ▸ ((k2 a).1 ha).1))
      · intro id hid
        rcases List.mem_append.1 hid with hid | hid
        · have := (k2 id).1 hid
          exact ⟨fun e => h0 (e ▸ hid), this.2, (adjacent_cons ..).2 (.inl this.1)⟩
        · have := h3 id hid
          exact ⟨this.1, fun hW => this.2.1 ((k3 id).2 (.inl hW)), (adjacent_cons ..).2 (.inr this.2.2)⟩
      · rw [h4, k3, adjacent_cons]
        rw [k2] at h0
        constructor
        · rintro ((a | a) | a)
          · exact .inl a
          · exact .inl (Decidable.by_contra fun hW => h0 ⟨a, hW⟩)
          · by_cases hW : 0 ∈ W
            · exact .inl hW
            · exact .inr fun o => o.elim (fun hn => h0 ⟨hn, hW⟩) a
        · rintro (a | a)
          · exact .inl (.inl a)
          · exact .inr fun o => a (.inr o)
      · intro hok id hW ha
        rw [List.mem_append, k2]
        by_cases hn : id ∈ nbrs x n
        · exact .inl ⟨hn, hW⟩
        · exact .inr (h5 hok id (fun h => ((k3 id).1 h).elim hW hn) (((adjacent_cons ..).1 ha).resolve_left hn))
    · have := (k2 0).1 h0
      refine ⟨false, s', [], by rw [h]; simp [withVector], List.nodup_nil, by simp, ?_, by simp⟩
      simp [this.2, adjacent_cons, this.1]

/-- `fill` reads the ids that are not there. -/
theorem fillLoop_eq (x : Data V) (ids : List Nat) : ∀ (m : Nat → Option V) (acc : List Nat),
    (fillLoop x m ids (pairs acc) = none ∧ 0 ∈ ids ∧ m 0 = none ∧ x.start = none) ∨
    ∃ m' keys, fillLoop x m ids (pairs acc) = some (m', pairs keys) ∧
      (∀ id, m' id = if id = 0 ∧ 0 ∈ ids then (m 0).or x.start else m id) ∧
      (0 ∈ ids → (m' 0).isSome) ∧
      ∀ id, id ∈ keys ↔ id ∈ acc ∨ (id ∈ ids ∧ id ≠ 0 ∧ m id = none) := by
  induction ids with
  | nil => intro m acc; exact .inr ⟨m, acc, rfl, by simp, by simp, by simp⟩
  | cons a ids ih =>
    intro m acc
    rw [fillLoop]
    by_cases h0 : a = 0
    · rw [if_pos h0]
      subst h0
      cases hm : m 0 with
      | some w =>
        simp only
        rcases ih m acc with ⟨_, _, hm', _⟩ | ⟨m', keys, h1, h2, h3, h4⟩
        · rw [hm] at hm'; cases hm'
        · refine .inr ⟨m', keys, h1, fun id => ?_, fun _ => ?_, fun id => ?_⟩
          · rw [h2 id]
            by_cases hid : id = 0
            · simp [hid, hm]
            · simp [hid]
          · rw [h2 0]
            simp [hm]
          · rw [h4 id]
            by_cases hid : id = 0
            · simp [hid]
            · simp [hid]
      | none =>
        cases hs : x.start with
        | none => exact .inl ⟨rfl, by simp, rfl, rfl⟩
        | some w =>
          simp only
          rcases ih (put m 0 w) acc with ⟨_, _, hm', _⟩ | ⟨m', keys, h1, h2, h3, h4⟩
          · simp [put] at hm'
          · refine .inr ⟨m', keys, h1, fun id => ?_, fun _ => ?_, fun id => ?_⟩
            · rw [h2 id]
              by_cases hid : id = 0
              · simp [hid, put]
              · simp [hid, put]
            · rw [h2 0]
              simp [put]
            · rw [h4 id]
              by_cases hid : id = 0
              · simp [hid]
              · simp [hid, put]
    · rw [if_neg h0]
      cases hm : m a with
      | some w =>
        rw [if_pos (by simp)]
        rcases ih m acc with ⟨e, hi, hm', hs⟩ | ⟨m', keys, h1, h2, h3, h4⟩
        · exact .inl ⟨e, List.mem_cons_of_mem _ hi, hm', hs⟩
        · refine .inr ⟨m', keys, h1, fun id => ?_, fun h => ?_, fun id => ?_⟩
          · rw [h2 id]
            simp [Ne.symm h0]
          · exact h3 ((List.mem_cons.1 h).resolve_left (Ne.symm h0))
          · rw [h4 id, List.mem_cons]
            constructor
            · rintro (k | ⟨k, l⟩)
              · exact .inl k
              · exact .inr ⟨.inr k, l⟩
            · rintro (k | ⟨rfl | k, l⟩)
              · exact .inl k
              · rw [hm] at l; cases l.2
              · exact .inr ⟨k, l⟩
      | none =>
        rw [if_neg (by simp)]
        have e : pairs acc ++ [4, a] = pairs (acc ++ [a]) := by simp [pairs_append, pairs]
        rw [e]
        rcases ih m (acc ++ [a]) with ⟨e, hi, hm', hs⟩ | ⟨m', keys, h1, h2, h3, h4⟩
        · exact .inl ⟨e, List.mem_cons_of_mem _ hi, hm', hs⟩
        · refine .inr ⟨m', keys, h1, fun id => ?_, fun h => ?_, fun id => ?_⟩
          · rw [h2 id]
            simp [Ne.symm h0]
          · exact h3 ((List.mem_cons.1 h).resolve_left (Ne.symm h0))
          · rw [h4 id, List.mem_append, List.mem_singleton, List.mem_cons]
            constructor
            · rintro ((k | rfl) | ⟨k, l⟩)
              · exact .inl k
              · exact .inr ⟨.inl rfl, h0, hm⟩
              · exact .inr ⟨.inr k, l⟩
            · rintro (k | ⟨rfl | k, l⟩)
              · exact .inl (.inl k)
              · exact .inl (.inr rfl)
              · exact .inr ⟨k, l⟩

theorem insertAll_eq (vec : Nat → Option V) (pre l : List Nat) (m : Nat → Option V) :
    ∃ m', insertAll (pairs (pre ++ l)) m (callsFrom vec pre.length l) = some m' ∧
      ∀ id, m' id = if id ∈ l then (vec id).or (m id) else m id := by
  induction l generalizing pre m with
  | nil => exact ⟨m, rfl, by simp⟩
  | cons a l ih =>
    have e : pre ++ a :: l = (pre ++ [a]) ++ l := by simp
    have hg : (pre ++ a :: l)[pre.length]? = some a := by simp
    cases hv : vec a with
    | none =>
      obtain ⟨m', h1, h2⟩ := ih (pre ++ [a]) m
      rw [List.length_append, List.length_singleton, ← e] at h1
      refine ⟨m', by simpa [callsFrom, hv] using h1, fun id => ?_⟩
      rw [h2 id]
      by_cases hid : id = a
      · subst hid
        by_cases hl : id ∈ l <;> simp [hl, hv]
      · simp [hid]
    | some v =>
      obtain ⟨m', h1, h2⟩ := ih (pre ++ [a]) (put m a v)
      rw [List.length_append, List.length_singleton, ← e] at h1
      refine ⟨m', ?_, fun id => ?_⟩
      · simp only [callsFrom, hv, insertAll, pairs_get, hg]
        exact h1
      · rw [h2 id]
        by_cases hid : id = a
        · subst hid
          by_cases hl : id ∈ l <;> simp [hl, hv, put]
        · simp [hid, put]

/-! ### Theorems -/

/-- The expansion of a beam by a search with a set of visited ids: each neighbor that was not visited and has a vector is
reported exactly once, with the distance of its own vector, nothing else is reported, and afterwards exactly the
neighbors are visited as well. -/
theorem C114_reported (dist : V → D) (x : Data V) {w : V} (hw : x.start = some w) (visited beam : List Nat) :
    ∃ visited' out, expandBeam dist x notIn visited beam [] = some (true, visited', out) ∧
      (out.map Prod.fst).Nodup ∧
      (∀ id d, (id, d) ∈ out ↔ id ∉ visited ∧ Adjacent x beam id ∧ ∃ v, VectorOf x id v ∧ d = dist v) ∧
      ∀ id, id ∈ visited' ↔ id ∈ visited ∨ Adjacent x beam id := by
  obtain ⟨W', L, h1, _, h3, h4, h5⟩ := walk dist (fun _ => true) x hw visited beam
  refine ⟨W', _, h1 [], ?_, fun id d => ?_, h5⟩
  · exact withVector_nodup _ _ _ (fun _ _ => rfl) h3
  · rw [List.nil_append, mem_withVector]
    constructor
    · rintro ⟨i, hi, v, hv, e⟩
      cases e
      exact ⟨((h4 _).1 hi).1, ((h4 _).1 hi).2, v, (look_iff ..).1 hv, rfl⟩
    · rintro ⟨a, b, v, hv, rfl⟩
      exact ⟨id, (h4 id).2 ⟨a, b⟩, v, (look_iff ..).2 hv, rfl⟩

/-- If the start point is not cached, the expansion fails exactly if it comes to the start point for the first time; what
it reported is right in any case. -/
theorem C114_start_missing (dist : V → D) (x : Data V) (hs : x.start = none) (visited beam : List Nat) :
    ∃ ok visited' out, expandBeam dist x notIn visited beam [] = some (ok, visited', out) ∧
      (ok = true ↔ 0 ∈ visited ∨ ¬ Adjacent x beam 0) ∧ (out.map Prod.fst).Nodup ∧
      (∀ id d, (id, d) ∈ out → id ∉ visited ∧ Adjacent x beam id ∧ ∃ v, VectorOf x id v ∧ d = dist v) ∧
      (ok = true → ∀ id v, id ∉ visited → Adjacent x beam id → VectorOf x id v → (id, dist v) ∈ out) := by
  obtain ⟨ok, W', L, h1, h2, h3, h4, h5⟩ := walkNone dist x hs beam visited []
  refine ⟨ok, W', _, h1, h4, withVector_nodup _ _ _ (fun _ _ => rfl) h2, fun id d h => ?_, fun hok id v hW ha hv => ?_⟩
  · rw [List.nil_append, mem_withVector] at h
    obtain ⟨i, hi, v, hv, e⟩ := h
    cases e
    have := h3 _ hi
    exact ⟨this.2.1, this.2.2, v, by simpa [VectorOf, this.1] using hv, rfl⟩
  · rw [List.nil_append, mem_withVector]
    have h0 : id ≠ 0 := fun e => by subst e; simp [VectorOf, hs] at hv
    exact ⟨id, h5 hok id hW ha, v, by simpa [VectorOf, h0] using hv, rfl⟩

/-- For every predicate: a filtered expansion reports the same ids with the same distances in the same order as a plain
one, leaves the predicate in the same state, and fails or panics if the plain one does. -/
theorem C114_filtered_same (dist : V → D) (filter : List Nat → Bool) (x : Data V) (p : Pred σ) (s : σ) (beam : List Nat) :
    (expandFiltered dist filter x p s beam []).map
      (fun r => (r.1, r.2.1, r.2.2.map fun o => (o.1, o.2.2))) = expandBeam dist x p s beam [] :=
  forget_eq dist filter x p beam s []

/-- For every predicate: an id is reported as accepted exactly if it is not the start point and the filter accepts its
attributes. -/
theorem C114_decisions (dist : V → D) (filter : List Nat → Bool) (x : Data V) (p : Pred σ) (s : σ) (beam : List Nat)
    {ok : Bool} {s' : σ} {out : List (Nat × Bool × D)}
    (h : expandFiltered dist filter x p s beam [] = some (ok, s', out)) (id : Nat) (accept : Bool) (d : D)
    (ho : (id, accept, d) ∈ out) : accept = true ↔ id ≠ 0 ∧ Accepts filter x id := by
  have := decided dist filter x p beam s [] (by simp) h _ ho
  simp only at this
  rw [this, accepts_iff]
  simp

/-- The accept-only expansion: each neighbor that was not visited, is not the start point, is accepted by the filter and
has a vector is reported exactly once, nothing else is reported, only accepted ids are marked as visited, and there is
no error even if the start point is not cached. -/
theorem C114_accept_only (dist : V → D) (filter : List Nat → Bool) (x : Data V) (visited beam : List Nat) :
    ∃ visited' out, expandAccept dist filter x notIn visited beam [] = some (true, visited', out) ∧
      (out.map Prod.fst).Nodup ∧
      (∀ id d, (id, d) ∈ out ↔
        id ∉ visited ∧ id ≠ 0 ∧ Accepts filter x id ∧ Adjacent x beam id ∧ ∃ v, VectorOf x id v ∧ d = dist v) ∧
      ∀ id, id ∈ visited' ↔ id ∈ visited ∨ (id ≠ 0 ∧ Accepts filter x id ∧ Adjacent x beam id) := by
  obtain ⟨W', L, h1, h3, h4, h5⟩ := walkAccept dist filter x visited beam
  refine ⟨W', _, h1 [], withVector_nodup _ _ _ (fun _ _ => rfl) h3, fun id d => ?_, fun id => ?_⟩
  · rw [List.nil_append, mem_withVector, accepts_iff]
    constructor
    · rintro ⟨i, hi, v, hv, e⟩
      cases e
      obtain ⟨a, b, c, e⟩ := (h4 _).1 hi
      exact ⟨a, b, c, e, v, by simpa [VectorOf, b] using hv, rfl⟩
    · rintro ⟨a, b, c, e, v, hv, rfl⟩
      exact ⟨id, (h4 id).2 ⟨a, b, c, e⟩, v, by simpa [VectorOf, b] using hv, rfl⟩
  · rw [h5, accepts_iff]

/-- The accept-only expansion reports exactly what a filtered expansion reports as accepted, in the same order. -/
theorem C114_accept_only_same (dist : V → D) (filter : List Nat → Bool) (x : Data V) {w : V} (hw : x.start = some w)
    (visited beam : List Nat) :
    ∃ v₁ v₂ out, expandFiltered dist filter x notIn visited beam [] = some (true, v₁, out) ∧
      expandAccept dist filter x notIn visited beam [] =
        some (true, v₂, (out.filter fun o => o.2.1).map fun o => (o.1, o.2.2)) := by
  obtain ⟨W', U', out, h1, h2, _⟩ := same dist filter x hw beam visited visited [] (fun _ _ _ => Iff.rfl)
  refine ⟨W', U', out, h1, ?_⟩
  have e : accepted out = (out.filter fun o => o.2.1).map fun o => (o.1, o.2.2) := by
    clear h1 h2
    induction out with
    | nil => rfl
    | cons o l ih =>
      unfold accepted at ih ⊢
      cases h : o.2.1 <;> simp [h, ih]
  rw [← e]
  exact h2

/-- No panic, for every predicate. -/
theorem C114_no_panic (dist : V → D) (filter : List Nat → Bool) (x : Data V) (p : Pred σ) (s : σ) (beam : List Nat) :
    expandBeam dist x p s beam [] ≠ none ∧ expandFiltered dist filter x p s beam [] ≠ none ∧
    expandAccept dist filter x p s beam [] ≠ none := by
  have h1 : ∀ (beam : List Nat) (s : σ) (out : List (Nat × D)), expandBeam dist x p s beam out ≠ none := by
    intro beam
    induction beam with
    | nil => intro s out h; cases h
    | cons n ns ih =>
      intro s out
      cases hs : x.start with
      | some v => rw [expandBeam_cons_some dist x p s n ns out hs]; exact ih _ _
      | none =>
        rcases expandBeam_cons_none dist x p s n ns out hs with ⟨_, h⟩ | ⟨_, s', h⟩
        · rw [h]; exact ih _ _
        · rw [h]; simp
  have h3 : ∀ (beam : List Nat) (s : σ) (out : List (Nat × D)), expandAccept dist filter x p s beam out ≠ none := by
    intro beam
    induction beam with
    | nil => intro s out h; cases h
    | cons n ns ih =>
      intro s out
      rw [expandAccept_cons]
      exact ih _ _
  refine ⟨h1 beam s [], fun h => ?_, h3 beam s []⟩
  have := forget_eq dist filter x p beam s []
  rw [h] at this
  exact h1 beam s _ this.symm

/-- Before pruning, every id that is asked for gets the vector that is kept from before, or its own: the cached start
point or the stored vector; other ids keep what they had.  The only error is a start point that is nowhere. -/
theorem C114_fill (x : Data V) (set : Nat → Option V) (ids : List Nat) :
    (fill x set ids = some none ∧ 0 ∈ ids ∧ set 0 = none ∧ x.start = none) ∨
    ∃ set', fill x set ids = some (some set') ∧ ¬ (0 ∈ ids ∧ set 0 = none ∧ x.start = none) ∧
      ∀ id, (id ∈ ids → ∀ v, set' id = some v ↔ (set id = some v ∨ (set id = none ∧ VectorOf x id v))) ∧
        (id ∉ ids → set' id = set id) := by
  rcases fillLoop_eq x ids set [] with ⟨h, h1, h2, h3⟩ | ⟨m', keys, h1, h2, h3, h4⟩
  · simp only [pairs] at h
    exact .inl ⟨by simp [fill, h], h1, h2, h3⟩
  · simp only [pairs] at h1
    obtain ⟨m, i1, i2⟩ := insertAll_eq x.vector [] keys m'
    simp only [List.nil_append, List.length_nil] at i1
    refine .inr ⟨m, by simp [fill, h1, readMulti_pairs, i1], ?_, fun id => ⟨fun hid v => ?_, fun hid => ?_⟩⟩
    · rintro ⟨a, b, c⟩
      have := h3 a
      rw [h2 0] at this
      simp [a, b, c] at this
    · have h4 := h4 id
      simp only [List.not_mem_nil, false_or] at h4
      rw [i2 id, h2 id]
      by_cases h0 : id = 0
      · subst h0
        have : 0 ∉ keys := fun h => (h4.1 h).2.1 rfl
        rw [if_neg this, if_pos ⟨rfl, hid⟩]
        cases hs : set 0 <;> simp [VectorOf]
      · cases hs : set id with
        | some u =>
          have : id ∉ keys := fun h => by rw [hs] at h4; exact absurd (h4.1 h).2.2 (by simp)
          simp [this, h0]
        | none =>
          have : id ∈ keys := h4.2 ⟨hid, h0, hs⟩
          simp [this, h0, VectorOf]
    · have h4 := h4 id
      simp only [List.not_mem_nil, false_or] at h4
      have : id ∉ keys := fun h => hid (h4.1 h).1
      rw [i2 id, if_neg this, h2 id, if_neg]
      rintro ⟨rfl, h⟩
      exact hid h

/-! ### The hypotheses can be met -/

/-- Two nodes, ids without a vector, without attributes, seen twice and seen before. -/
def exampleData : Data Nat where
  neighbors := fun n => if n = 1 then some [0, 2, 3, 2, 7] else if n = 2 then some [3, 4, 5] else none
  attrs := fun id => if id = 3 then some [9] else if id = 4 then some [8] else none
  vector := fun id => if id = 5 then none else some (10 * id)
  start := some 1

example : expandBeam (fun v => v + 1) exampleData notIn [7] [1, 2, 6] [] =
    some (true, [5, 4, 3, 2, 0, 7], [(0, 2), (2, 21), (3, 31), (4, 41)]) := by decide +kernel

example : expandFiltered (fun v => v + 1) (fun a => a = [9]) exampleData notIn [7] [1, 2, 6] [] =
    some (true, [5, 4, 3, 2, 0, 7], [(0, false, 2), (2, false, 21), (3, true, 31), (4, false, 41)]) := by decide +kernel

example : expandAccept (fun v => v + 1) (fun a => a ≠ [9]) exampleData notIn [7] [1, 2, 6] [] =
    some (true, [5, 4, 2, 7], [(2, 21), (4, 41)]) := by decide +kernel

example : (fill exampleData (fun id => if id = 3 then some 77 else none) [0, 3, 5, 2]).bind
    (fun r => r.map fun m => [m 0, m 1, m 2, m 3, m 5]) = some [some 1, none, some 20, some 77, none] := by decide +kernel

end Verif.Garnet.Beam
