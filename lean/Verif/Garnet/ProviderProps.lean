import Verif.Garnet.ProviderModel
/-
C33: backfill ranges; C34: the cached start point neighbours.
-/
namespace Verif.Garnet

theorem work_ge {n tc : Nat} (h : 0 < tc) : n ≤ (n + tc - 1) / tc * tc := by
  have h1 := Nat.div_add_mod (n + tc - 1) tc
  have h2 := Nat.mod_lt (n + tc - 1) h
  rw [Nat.mul_comm] at h1
  omega

theorem work_pos {n tc : Nat} (h : 0 < tc) (hn : 0 < n) : 0 < (n + tc - 1) / tc :=
  Nat.div_pos (by omega) h

/-- C33: the backfill tasks together process every id up to the limit, whatever the number of tasks. -/
theorem C33_backfill_covers (maxId taskCount id : Nat) (hm : maxId < 4294967295) (ht : 0 < taskCount)
    (hid : id ≤ maxId) : ∃ taskIdx, taskIdx < taskCount ∧ backfills maxId taskCount taskIdx id := by
  obtain ⟨tc, htc⟩ : ∃ tc, tc = min taskCount (maxId + 1) := ⟨_, rfl⟩
  have htc0 : 0 < tc := by omega
  obtain ⟨w, hw⟩ : ∃ w, w = (maxId + 1 + tc - 1) / tc := ⟨_, rfl⟩
  have hw1 : maxId + 1 ≤ w * tc := by rw [hw]; exact work_ge htc0
  have hw0 : 0 < w := by rw [hw]; exact work_pos htc0 (by omega)
  have hlt : id / w < tc := (Nat.div_lt_iff_lt_mul hw0).2 (by rw [Nat.mul_comm]; omega)
  have hle : w * (id / w) ≤ id := Nat.mul_div_le id w
  have hgt : id < w * (id / w + 1) := Nat.lt_mul_div_succ id hw0
  refine ⟨id / w, by omega, w * (id / w), min (w * (id / w + 1)) (maxId + 1), ?_, hle, by omega⟩
  unfold backfillRange
  rw [if_neg (by omega)]
  simp only
  rw [← htc, if_neg (by omega), ← hw]
  unfold asU32
  rw [Nat.mod_eq_of_lt (by omega), Nat.mod_eq_of_lt (by omega)]

/-- C33: no task processes an id beyond the limit. -/
theorem C33_backfill_in_range (maxId taskCount taskIdx id : Nat)
    (h : backfills maxId taskCount taskIdx id) : id ≤ maxId := by
  obtain ⟨a, b, hr, h1, h2⟩ := h
  unfold backfillRange at hr
  split at hr
  · simp at hr
  · simp only at hr
    split at hr
    · simp at hr
    · simp only [Option.some.injEq, Prod.mk.injEq] at hr
      have := hr.2
      unfold asU32 at this
      rw [Nat.mod_eq_of_lt (by omega)] at this
      omega

/-- C33, as long as no range start wraps around: the ranges of different tasks are disjoint.  Missing: the
start of a range is computed modulo `2^32`, so it can wrap (see `C33_backfill_overlap`). -/
theorem C33_backfill_disjoint_partial (maxId taskCount i j id : Nat)
    (hwrap : (maxId + 1 + min taskCount (maxId + 1)) ≤ 4294967296)
    (hi : backfills maxId taskCount i id) (hj : backfills maxId taskCount j id) : i = j := by
  obtain ⟨tc, htc⟩ : ∃ tc, tc = min taskCount (maxId + 1) := ⟨_, rfl⟩
  have key : ∀ k, backfills maxId taskCount k id →
      (maxId + 1 + tc - 1) / tc * k ≤ id ∧ id < (maxId + 1 + tc - 1) / tc * (k + 1) := by
    rintro k ⟨a, b, hr, h1, h2⟩
    unfold backfillRange at hr
    split at hr
    · simp at hr
    · simp only at hr
      rw [← htc] at hr
      split at hr
      · simp at hr
      · simp only [Option.some.injEq, Prod.mk.injEq] at hr
        have hb : (maxId + 1 + tc - 1) / tc * k < 4294967296 := by
          have hk : k ≤ tc - 1 := by omega
          have h3 : (maxId + 1 + tc - 1) / tc * k ≤ (maxId + 1 + tc - 1) / tc * (tc - 1) :=
            Nat.mul_le_mul_left _ hk
          have h4 : (maxId + 1 + tc - 1) / tc * tc ≤ maxId + 1 + tc - 1 := Nat.div_mul_le_self _ _
          have h5 : (maxId + 1 + tc - 1) / tc * (tc - 1) ≤ (maxId + 1 + tc - 1) / tc * tc :=
            Nat.mul_le_mul_left _ (by omega)
          omega
        unfold asU32 at hr
        rw [Nat.mod_eq_of_lt hb, Nat.mod_eq_of_lt (by omega)] at hr
        omega
  obtain ⟨a1, a2⟩ := key i hi
  obtain ⟨b1, b2⟩ := key j hj
  generalize (maxId + 1 + tc - 1) / tc = w at *
  rcases Nat.lt_trichotomy i j with h | h | h
  · have := Nat.mul_le_mul_left w (show i + 1 ≤ j by omega)
    omega
  · exact h
  · have := Nat.mul_le_mul_left w (show j + 1 ≤ i by omega)
    omega

/-- C33 fails without that: with a full id space and a million tasks, the last task starts at id 28409, so
two tasks process id 30000. -/
theorem C33_backfill_overlap : ∃ maxId taskCount i j id, i ≠ j ∧ maxId < 4294967295 ∧
    backfills maxId taskCount i id ∧ backfills maxId taskCount j id :=
  ⟨4294967294, 1000000, 6, 999999, 30000, by decide, by decide,
    ⟨25770, 30065, by decide, by decide, by decide⟩, ⟨28409, 4294967295, by decide +kernel, by decide, by decide⟩⟩

/-- Seven ids, three tasks: ranges 0-2, 3-5, 6. -/
example : (List.range 4).map (backfillRange 6 3) = [some (0, 3), some (3, 6), some (6, 7), none] := by decide
example : (6 + 1 + min 3 (6 + 1)) ≤ 4294967296 := by decide

/-! ## The neighbour cache -/

/-- The list of a vertex in the backing store. -/
def NState.stored (maxDegree : Nat) (s : NState) (id : Nat) : Option (List Nat) :=
  (s.recs id).map (recList maxDegree)

/-- Set operations respect the degree bound (`max_degree`), the scratch fills the record. -/
def NOp.ok (maxDegree : Nat) : NOp → Prop
  | .set _ ns junk => ns.length ≤ maxDegree ∧ maxDegree ≤ ns.length + junk.length
  | _ => True

/-- Stored records are whole and their length cell is in range. -/
def NState.WF (maxDegree : Nat) (s : NState) : Prop :=
  ∀ id r, s.recs id = some r → ∃ l, r.length = maxDegree + 1 ∧ r[maxDegree]? = some l ∧ l ≤ maxDegree

theorem recList_mk {maxDegree : Nat} {ns junk : List Nat} (h1 : ns.length ≤ maxDegree)
    (h2 : maxDegree ≤ ns.length + junk.length) :
    (mkRec maxDegree ns junk).length = maxDegree + 1 ∧
      (mkRec maxDegree ns junk)[maxDegree]? = some ns.length ∧ recList maxDegree (mkRec maxDegree ns junk) = ns := by
  have hlen : ((ns ++ junk).take maxDegree).length = maxDegree := by
    rw [List.length_take, List.length_append]; omega
  have hc : (mkRec maxDegree ns junk)[maxDegree]? = some ns.length := by
    unfold mkRec
    rw [List.getElem?_append_right (by omega), hlen]; simp
  refine ⟨by unfold mkRec; rw [List.length_append, hlen]; rfl, hc, ?_⟩
  unfold recList
  rw [hc]
  unfold mkRec
  simp only [Option.getD_some]
  rw [List.take_append_of_le_length (by omega), List.take_take, Nat.min_eq_left h1,
    List.take_append_of_le_length (Nat.le_refl _), List.take_length]

theorem appendLoop_spec (maxDegree : Nat) : ∀ (ns data : List Nat) (len : Nat),
    data.length = maxDegree + 1 → data[maxDegree]? = some len → len ≤ maxDegree →
    ∃ data' len' early, appendLoop maxDegree ns data len = (data', len', early) ∧
      data'.length = maxDegree + 1 ∧ data'[maxDegree]? = some len' ∧ len' ≤ maxDegree ∧
      data.take len <+: data'.take len' ∧ (early = true → len + ns.length > maxDegree) := by
  intro ns
  induction ns with
  | nil =>
    intro data len h1 h2 h3
    exact ⟨data, len, false, rfl, h1, h2, h3, List.prefix_refl _, by simp⟩
  | cons n ns ih =>
    intro data len h1 h2 h3
    unfold appendLoop
    split
    · rename_i he
      exact ⟨data, len, true, rfl, h1, h2, h3, List.prefix_refl _, by simp; omega⟩
    · split
      · obtain ⟨d, l, e, g1, g2, g3, g4, g5, g6⟩ := ih data len h1 h2 h3
        exact ⟨d, l, e, g1, g2, g3, g4, g5, fun he => by have := g6 he; simp only [List.length_cons]; omega⟩
      · rename_i hne _
        have hl : len < maxDegree := by omega
        obtain ⟨d, l, e, g1, g2, g3, g4, g5, g6⟩ :=
          ih ((data.set len n).set maxDegree (len + 1)) (len + 1) (by simp [h1])
            (by rw [List.getElem?_set_self (by simp [h1])]) (by omega)
        refine ⟨d, l, e, g1, g2, g3, g4, List.IsPrefix.trans ?_ g5,
          fun he => by have := g6 he; simp only [List.length_cons]; omega⟩
        rw [List.take_set_of_le (by omega), List.take_add_one, List.take_set_of_le (Nat.le_refl _)]
        exact List.prefix_append _ _

theorem NState.apply_wf {maxDegree : Nat} {s : NState} (h : s.WF maxDegree) {op : NOp} (hop : op.ok maxDegree) :
    (s.apply maxDegree op).WF maxDegree := by
  intro id r hr
  cases op with
  | set id' ns junk =>
    simp only [NState.apply, NState.set] at hr
    split at hr
    · simp only [Option.some.injEq] at hr
      subst hr
      obtain ⟨h1, h2, h3⟩ := recList_mk hop.1 hop.2
      exact ⟨_, h1, h2, hop.1⟩
    · exact h id r hr
  | append id' ns =>
    obtain ⟨data, hd⟩ : ∃ data, data = (s.recs id').getD (List.replicate (maxDegree + 1) 0) := ⟨_, rfl⟩
    obtain ⟨l, h1, h2, h3⟩ : ∃ l, data.length = maxDegree + 1 ∧ data[maxDegree]? = some l ∧ l ≤ maxDegree := by
      cases hrec : s.recs id' with
      | none => rw [hrec] at hd; subst hd; exact ⟨0, by simp, by simp, Nat.zero_le _⟩
      | some r0 => rw [hrec] at hd; subst hd; exact h id' data hrec
    obtain ⟨d', l', e, g1, g2, g3, g4, g5, g6⟩ := appendLoop_spec maxDegree ns data l h1 h2 h3
    simp only [NState.apply, NState.append, ← hd, h2, Option.getD_some, Nat.min_eq_left h3, g1] at hr
    split at hr
    · simp only [Option.some.injEq] at hr
      subst hr
      exact ⟨l', g2, g3, g4⟩
    · exact h id r hr
  | start =>
    simp only [NState.apply, NState.start] at hr
    split at hr
    · exact h id r hr
    · simp only at hr
      split at hr
      · simp only [Option.some.injEq] at hr
        subst hr
        exact ⟨0, by simp, by simp, Nat.zero_le _⟩
      · exact h id r hr
  | restart => exact h id r hr

/-- The effect of an append on the list of its vertex. -/
theorem NState.append_stored {maxDegree : Nat} {s : NState} (h : s.WF maxDegree) (id : Nat) (ns : List Nat) :
    ∃ new early, (s.append maxDegree id ns).stored maxDegree id = some new ∧
      ((s.stored maxDegree id).getD []) <+: new ∧
      (s.append maxDegree id ns).cache =
        (if early then s.cache else if id = 0 then s.cache.map (fun _ => new) else s.cache) ∧
      (early = true → ((s.stored maxDegree id).getD []).length + ns.length > maxDegree) ∧
      ∀ j, j ≠ id → (s.append maxDegree id ns).stored maxDegree j = s.stored maxDegree j := by
  obtain ⟨data, hd⟩ : ∃ data, data = (s.recs id).getD (List.replicate (maxDegree + 1) 0) := ⟨_, rfl⟩
  obtain ⟨l, h1, h2, h3, h4⟩ : ∃ l, data.length = maxDegree + 1 ∧ data[maxDegree]? = some l ∧ l ≤ maxDegree ∧
      (s.stored maxDegree id).getD [] = data.take l := by
    cases hrec : s.recs id with
    | none =>
      rw [hrec] at hd; subst hd
      exact ⟨0, by simp, by simp, Nat.zero_le _, by simp [NState.stored, hrec]⟩
    | some r0 =>
      rw [hrec] at hd; subst hd
      obtain ⟨l, e1, e2, e3⟩ := h id data hrec
      exact ⟨l, e1, e2, e3, by simp [NState.stored, hrec, recList, e2]⟩
  obtain ⟨d', l', e, g1, g2, g3, g4, g5, g6⟩ := appendLoop_spec maxDegree ns data l h1 h2 h3
  have happ : s.append maxDegree id ns =
      { recs := fun j => if j = id then some d' else s.recs j
        cache := if e then s.cache
          else if id = 0 then s.cache.map (fun _ => d'.take l') else s.cache } := by
    simp only [NState.append, ← hd, h2, Option.getD_some, Nat.min_eq_left h3, g1]
  refine ⟨d'.take l', e, ?_, ?_, ?_, ?_, ?_⟩
  · rw [happ]; simp [NState.stored, recList, g3]
  · rw [h4]; exact g5
  · rw [happ]
  · intro he
    rw [h4, List.length_take, h1, Nat.min_eq_left (by omega)]
    exact g6 he
  · intro j hj
    rw [happ]; simp [NState.stored, hj]

/-- Cached and stored list. -/
def Coherent (maxDegree : Nat) (s : NState) : Prop :=
  ∀ c, s.cache = some c → s.stored maxDegree 0 = some c
def PrefixCoherent (maxDegree : Nat) (s : NState) : Prop :=
  ∀ c, s.cache = some c → ∃ l, s.stored maxDegree 0 = some l ∧ c <+: l

theorem set_stored {maxDegree : Nat} {s : NState} {id : Nat} {ns junk : List Nat}
    (hop : NOp.ok maxDegree (.set id ns junk)) (j : Nat) :
    (s.set maxDegree id ns junk).stored maxDegree j =
      if j = id then some ns else s.stored maxDegree j := by
  simp only [NState.stored, NState.set]
  split
  · simp [(recList_mk hop.1 hop.2).2.2]
  · rfl

theorem start_stored {maxDegree : Nat} {s : NState} :
    (s.start maxDegree).stored maxDegree 0 = (s.start maxDegree).cache := by
  simp only [NState.start]
  cases hr : s.recs 0 with
  | none => simp [NState.stored, recList]
  | some r => simp [NState.stored, hr]

/-- C34, what holds for every history: the neighbours of the start point seen by searches (the cached list)
are always a prefix of the stored ones. -/
theorem C34_cache_prefix (maxDegree : Nat) (ops : List NOp) (hops : ∀ op ∈ ops, op.ok maxDegree) :
    PrefixCoherent maxDegree (NState.run maxDegree .empty ops) := by
  have key : ∀ (ops : List NOp) (s : NState), s.WF maxDegree → PrefixCoherent maxDegree s →
      (∀ op ∈ ops, op.ok maxDegree) → PrefixCoherent maxDegree (NState.run maxDegree s ops) := by
    intro ops
    induction ops with
    | nil => intro s _ h _; exact h
    | cons op ops ih =>
      intro s hwf h hok
      have hop := hok op (by simp)
      apply ih (s.apply maxDegree op) (NState.apply_wf hwf hop) ?_ (fun o ho => hok o (by simp [ho]))
      intro c hc
      cases op with
      | set id ns junk =>
        simp only [NState.apply] at hc ⊢
        rw [set_stored hop]
        simp only [NState.set] at hc
        split at hc
        · rename_i he
          simp only [Option.some.injEq] at hc
          subst hc
          exact ⟨ns, by rw [if_pos he.symm], List.prefix_refl _⟩
        · rename_i he
          rw [if_neg (fun h => he h.symm)]
          exact h c hc
      | append id ns =>
        simp only [NState.apply] at hc ⊢
        obtain ⟨new, early, g1, g2, g3, g4, g5⟩ := NState.append_stored hwf id ns
        by_cases hid : id = 0
        · subst hid
          rw [g3] at hc
          cases early with
          | true =>
            simp only [if_true] at hc
            obtain ⟨l, h1, h2⟩ := h c hc
            rw [h1] at g2
            exact ⟨new, g1, h2.trans g2⟩
          | false =>
            simp only [Bool.false_eq_true, if_false, if_true] at hc
            cases hs : s.cache with
            | none => rw [hs] at hc; simp at hc
            | some c0 =>
              rw [hs] at hc
              simp only [Option.map_some, Option.some.injEq] at hc
              subst hc
              exact ⟨new, g1, List.prefix_refl _⟩
        · rw [g5 0 (fun h => hid h.symm)]
          rw [g3] at hc
          simp only [hid, if_false, ite_self] at hc
          exact h c hc
      | start =>
        simp only [NState.apply] at hc ⊢
        exact ⟨c, by rw [start_stored]; exact hc, List.prefix_refl _⟩
      | restart => simp [NState.apply] at hc
  refine key ops _ ?_ ?_ hops
  · intro id r hr; simp [NState.empty] at hr
  · intro c hc; simp [NState.empty] at hc

/-- The appends to the start point in a history all fit: list and new neighbours together are at most
`max_degree`. -/
def Fits (maxDegree : Nat) : NState → List NOp → Prop
  | _, [] => True
  | s, op :: ops =>
    (match op with
      | .append 0 ns => ((s.stored maxDegree 0).getD []).length + ns.length ≤ maxDegree
      | _ => True) ∧ Fits maxDegree (s.apply maxDegree op) ops

/-- C34, for histories whose appends to the start point fit: cache and store agree.  Missing: an append that
fills the list returns before updating the cache (see `C34_append_stale`). -/
theorem C34_cache_coherent_partial (maxDegree : Nat) (ops : List NOp) (hops : ∀ op ∈ ops, op.ok maxDegree)
    (hfit : Fits maxDegree .empty ops) : Coherent maxDegree (NState.run maxDegree .empty ops) ∧
      ∀ id, (NState.run maxDegree .empty ops).get maxDegree id =
        (NState.run maxDegree .empty ops).stored maxDegree id := by
  have key : ∀ (ops : List NOp) (s : NState), s.WF maxDegree → Coherent maxDegree s → Fits maxDegree s ops →
      (∀ op ∈ ops, op.ok maxDegree) → Coherent maxDegree (NState.run maxDegree s ops) := by
    intro ops
    induction ops with
    | nil => intro s _ h _ _; exact h
    | cons op ops ih =>
      intro s hwf h hf hok
      have hop := hok op (by simp)
      apply ih (s.apply maxDegree op) (NState.apply_wf hwf hop) ?_ hf.2 (fun o ho => hok o (by simp [ho]))
      intro c hc
      cases op with
      | set id ns junk =>
        simp only [NState.apply] at hc ⊢
        rw [set_stored hop]
        simp only [NState.set] at hc
        split at hc
        · rename_i he
          rw [if_pos he.symm]; exact hc
        · rename_i he
          rw [if_neg (fun h => he h.symm)]
          exact h c hc
      | append id ns =>
        simp only [NState.apply] at hc ⊢
        obtain ⟨new, early, g1, g2, g3, g4, g5⟩ := NState.append_stored hwf id ns
        by_cases hid : id = 0
        · subst hid
          have hfit0 : ((s.stored maxDegree 0).getD []).length + ns.length ≤ maxDegree := hf.1
          rw [g3] at hc
          cases early with
          | true => have := g4 rfl; omega
          | false =>
            simp only [Bool.false_eq_true, if_false, if_true] at hc
            cases hs : s.cache with
            | none => rw [hs] at hc; simp at hc
            | some c0 =>
              rw [hs] at hc
              simp only [Option.map_some, Option.some.injEq] at hc
              subst hc
              exact g1
        · rw [g5 0 (fun h => hid h.symm)]
          rw [g3] at hc
          simp only [hid, if_false, ite_self] at hc
          exact h c hc
      | start =>
        simp only [NState.apply] at hc ⊢
        rw [start_stored]; exact hc
      | restart => simp [NState.apply] at hc
  have hc : Coherent maxDegree (NState.run maxDegree .empty ops) := by
    refine key ops _ ?_ ?_ hfit hops
    · intro id r hr; simp [NState.empty] at hr
    · intro c hc; simp [NState.empty] at hc
  refine ⟨hc, ?_⟩
  intro id
  unfold NState.get
  by_cases hid : id = 0
  · subst hid
    simp only [if_true]
    split
    · rename_i c hcc; exact (hc c hcc).symm
    · rfl
  · simp only [hid, if_false]; rfl

/-- C34 fails in general: with `max_degree = 2`, appending three neighbours to the new start point fills the
stored list but leaves the cached one empty, so searches see no neighbours at all. -/
theorem C34_append_stale : ∃ (maxDegree : Nat) (ops : List NOp), (∀ op ∈ ops, op.ok maxDegree) ∧
    (NState.run maxDegree .empty ops).get maxDegree 0 = some [] ∧
    (NState.run maxDegree .empty ops).stored maxDegree 0 = some [5, 6] :=
  ⟨2, [.start, .append 0 [5, 6, 7]], by simp [NOp.ok], by decide, by decide⟩

/-- A history meeting the hypotheses: create, append, overwrite. -/
example : let ops : List NOp := [.start, .append 0 [5, 6], .append 0 [6], .set 0 [7] [0, 0], .append 3 [1, 2, 3, 4]]
    (∀ op ∈ ops, op.ok 3) ∧ Fits 3 .empty ops ∧ (NState.run 3 .empty ops).get 3 0 = some [7] ∧
      (NState.run 3 .empty ops).get 3 3 = some [1, 2, 3] := by
  refine ⟨by simp [NOp.ok], ?_, by decide, by decide⟩
  refine ⟨trivial, ?_, ?_, trivial, trivial, trivial⟩ <;> (show (_ : Nat) ≤ 3; decide)

end Verif.Garnet
