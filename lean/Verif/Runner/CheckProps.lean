import Verif.Runner.CheckLemmas
/-
C112: regression checks of the benchmark runner.
-/
namespace Verif.Runner

/-- `is_subset` ends on every pair of values and answers whether the needle is a structural subset of the haystack. -/
theorem C112_subset (h n : Json) (hk : Keys n) :
    ∃ b, (∀ fuel, weight n ≤ fuel → subsetLoop fuel h n [] = some b) ∧ isSubset h n = b ∧ (b = true ↔ Subset h n) := by
  refine ⟨isSubset h n, ?_, rfl, isSubset_iff hk⟩
  intro fuel hf
  obtain ⟨b, hb, hs⟩ := subsetLoop_spec fuel h n [] hk (by simp) (by simpa [weights] using hf)
  rw [hb]
  have h1 : b = true ↔ isSubset h n = true := by
    rw [isSubset_iff hk]
    simpa [AllSub] using hs
  cases b <;> cases hb' : isSubset h n <;> simp_all

example : isSubset (.obj [("a", .arr [.num (.pos 1), .str "x"]), ("b", .null)]) (.obj [("a", .arr [.num (.pos 1)])]) = true :=
  by decide +kernel
example : isSubset (.obj [("a", .num (.pos 1))]) (.obj [("a", .num (.pos 1)), ("b", .null)]) = false := by decide +kernel
example : isSubset (.num (.pos 1)) (.num (.flt 1)) = false := by decide +kernel
example : Keys (.obj [("a", .arr [.num (.pos 1)]), ("b", .null)]) :=
  .obj _ (by decide) (by simp only [List.mem_cons, List.not_mem_nil, or_false, forall_eq_or_imp, forall_eq]
                         exact ⟨.arr _ (by simpa using .num _), .null⟩)

/-- Being a structural subset is an order up to the prefix rule: every value is a subset of itself, and subsets of
subsets are subsets. -/
theorem C112_subset_order (a b c : Json) : Subset a a ∧ (Subset a b → Subset b c → Subset a c) := by
  constructor
  · intro p v hv
    refine ⟨v, hv, ?_⟩
    cases v with
    | null => exact .null
    | bool b => exact .bool b
    | num b => exact .num b
    | str b => exact .str b
    | arr l => exact .arr l l
    | obj l => exact .obj l l
  · intro hab hbc p v hv
    obtain ⟨w, hw, ha⟩ := hbc p v hv
    obtain ⟨x, hx, ha'⟩ := hab p w hw
    refine ⟨x, hx, ?_⟩
    cases ha <;> cases ha' <;> constructor

/-- A score after any sequence of penalties and failures: it is a success exactly if there was no failure, and then
it is the sum of the penalties, capped; otherwise it is the sum of the failures, capped from the second one on. -/
theorem C112_score (n : Nat) (ops : List ScoreOp) :
    (failures ops = [] → n ≤ u32Max → scoreAfter (.success n) ops = .success (min (n + penalties ops) u32Max)) ∧
    (∀ f fs, failures ops = f :: fs → f ≤ u32Max →
      scoreAfter (.success n) ops = .failure (min (f + fs.sum) u32Max)) := by
  have hfail : ∀ (ops : List ScoreOp) (k : Nat), k ≤ u32Max →
      scoreAfter (.failure k) ops = .failure (min (k + (failures ops).sum) u32Max) := by
    intro ops
    induction ops with
    | nil => intro k hk; simp [scoreAfter, failures, Nat.min_eq_left hk]
    | cons o ops ih =>
      intro k hk
      cases o with
      | penalize m =>
        have := ih k hk
        simpa [scoreAfter, failures, Score.penalize] using this
      | fail m =>
        have := ih (satAdd k m) (Nat.min_le_right _ _)
        simp only [scoreAfter, List.foldl_cons, Score.fail] at this ⊢
        rw [this]
        have hf : (failures (.fail m :: ops)).sum = m + (failures ops).sum := by simp [failures]
        rw [hf]
        simp only [satAdd, Score.failure.injEq]
        omega
  constructor
  · induction ops generalizing n with
    | nil => intro _ hn; simp [scoreAfter, penalties, Nat.min_eq_left hn]
    | cons o ops ih =>
      intro hf hn
      cases o with
      | fail m => simp [failures] at hf
      | penalize m =>
        have := ih (satAdd n m) (by simpa [failures] using hf) (Nat.min_le_right _ _)
        simp only [scoreAfter, List.foldl_cons, Score.penalize] at this ⊢
        rw [this]
        simp only [penalties, List.map_cons, List.sum_cons, satAdd, Score.success.injEq]
        omega
  · induction ops generalizing n with
    | nil => intro f fs hf; simp [failures] at hf
    | cons o ops ih =>
      intro f fs hf hle
      cases o with
      | fail m =>
        have hc : failures (.fail m :: ops) = m :: failures ops := by simp [failures]
        rw [hc] at hf
        simp only [List.cons.injEq] at hf
        obtain ⟨rfl, rfl⟩ := hf
        have := hfail ops m hle
        simpa only [scoreAfter, List.foldl_cons, Score.fail] using this
      | penalize m =>
        have := ih (satAdd n m) f fs (by simpa [failures] using hf) hle
        simpa [scoreAfter, Score.penalize] using this

example : scoreAfter (.success 3) [.penalize 4, .fail 10, .penalize 9, .fail 2] = .failure 12 := by decide
example : scoreAfter (.success 3) [.penalize 4, .penalize 4294967295] = .success 4294967295 := by decide

/-- `run` executes the benchmark with the smallest score, the first registered among equals, and reports a missing
benchmark exactly if none matches.  Gated benchmarks and benchmarks of another input type never run. -/
theorem C112_best {V : Type} (r : Registry V) (a : Any V) :
    (∀ b, r.callee a = some b ↔ IsBest (fun b => (b.tryMatch a).score) r.benches b) ∧
    (r.callee a = none ↔ ∀ b ∈ r.benches, (b.tryMatch a).score = none) ∧
    (∀ b, r.callee a = some b → ∃ score g, b.kind = .real a.ty score g ∧ ∃ s, score a.val = .success s) := by
  refine ⟨fun b => findBest_iff, findBest_none, ?_⟩
  intro b hb
  obtain ⟨_, _, s, _, hs, _, _⟩ := findBest_some hb
  cases hk : b.kind with
  | real ty sc g =>
    simp only [Bench.tryMatch, hk] at hs
    split at hs
    · rename_i ht
      subst ht
      refine ⟨sc, g, rfl, ?_⟩
      cases hsc : sc a.val with
      | success v => exact ⟨v, rfl⟩
      | failure v => simp [Match.score, hsc, Score.matchScore] at hs
    · simp [Match.score] at hs
  | partlyGated ty f =>
    simp only [Bench.tryMatch, hk] at hs
    split at hs <;> simp [Match.score] at hs
  | fullyGated t f => simp [Bench.tryMatch, hk, Match.score] at hs

/-- Registered benchmarks keep the order of registration, and an input that parses under the tag of a benchmark has
the input type of that benchmark; an input whose tag belongs to a gated input never parses. -/
theorem C112_registered {V : Type} (env : Env V) (bs : List (Bench V)) :
    (Registry.build env bs).benches.Sublist bs ∧
    (∀ b ∈ (Registry.build env bs).benches, ∀ ty sc g, b.kind = .real ty sc g → ∀ u a, u.tag = env.tagOf ty →
      parseInput env (Registry.build env bs) u = .ok a → a.ty = ty) ∧
    (∀ b ∈ (Registry.build env bs).benches, ∀ tag f, b.kind = .fullyGated tag f → ∀ u, u.tag = tag →
      parseInput env (Registry.build env bs) u = .error .badInput) ∧
    ∀ u a, parseInput env (Registry.build env bs) u = .ok a → env.tagOf a.ty = u.tag := by
  have ho := build_ok env bs
  refine ⟨?_, ?_, ?_, ?_⟩
  · unfold Registry.build
    have gen : ∀ (l : List (Bench V)) (r : Registry V), RegOk env r →
        ∃ m, (l.foldl (fun r b => (r.register env b).getD r) r).benches = r.benches ++ m ∧ m.Sublist l := by
      intro l
      induction l with
      | nil => intro r _; exact ⟨[], by simp, List.Sublist.refl _⟩
      | cons b l ih =>
        intro r hr
        simp only [List.foldl_cons]
        cases hb : r.register env b with
        | none =>
          obtain ⟨m, hm, hs⟩ := ih r hr
          exact ⟨m, by simpa using hm, hs.cons _⟩
        | some r' =>
          obtain ⟨h1, h2⟩ := register_ok hr hb
          obtain ⟨m, hm, hs⟩ := ih r' h1
          exact ⟨b :: m, by simp only [Option.getD_some]; rw [hm, h2]; simp, hs.cons₂ _⟩
    obtain ⟨m, hm, hs⟩ := gen bs {} ⟨fun tag ty h => by simp at h, by simp, by simp, by simp⟩
    rw [hm]; simpa using hs
  · intro b hb ty sc g hk u a hu hp
    have h1 := (parseInput_ok hp).1
    rw [hu, ho.real b hb ty sc g hk] at h1
    cases h1; rfl
  · intro b hb tag f hk u hu
    unfold parseInput
    rw [hu, ho.fully b hb tag f hk]
  · intro u a hp
    exact ho.tags _ _ (parseInput_ok hp).1

/-- The benchmarks behind a tolerance tag are exactly the registered benchmarks whose tolerances have that tag, in
the order of registration; the tolerance is parsed as the type of the first of them. -/
theorem C112_tolerances {V : Type} (env : Env V) (r : Registry V) (tag : String) (e : TolEntry V)
    (h : (r.tolerances env).lookup tag = some e) :
    e.regs = r.benches.filterMap (regWithTag env tag) ∧ ∃ b l, e.regs = b :: l ∧ e.ty = b.reg.tolTy :=
  ⟨(tolerances_ok env r).regs tag e (lookup_some h), (tolerances_ok env r).first tag e (lookup_some h)⟩

/-- If `check verify` accepts a tolerance file and an input file then every input has exactly one tolerance that
applies to it, every tolerance applies to some input, and the check at each position is made of the input at that
position, the tolerance that applies to it and the best of the benchmarks registered for that tolerance. -/
theorem C112_checks {V : Type} {env : Env V} {bs : List (Bench V)} {tols : List RawCheck} {js : List Unprocessed}
    {cs : List (Check V)} (hk : ∀ c ∈ tols, Keys c.input.content)
    (h : newChecks env (Registry.build env bs) tols js = .ok cs) :
    cs.length = js.length ∧
    (∀ (j : Nat) (u : Unprocessed), js[j]? = some u → ∃ (t : Nat) (c : RawCheck) (k : Check V),
      (∀ t', (∃ c', tols[t']? = some c' ∧ Applies c' u) ↔ t' = t) ∧ tols[t]? = some c ∧ cs[j]? = some k ∧
      env.tagOf k.input.ty = u.tag ∧ env.deser k.input.ty u.content = some k.input.val ∧
      env.deser k.tolerance.ty c.tolerance.content = some k.tolerance.val ∧
      IsBest (fun b => (b.bench.tryMatch k.input).score)
        ((Registry.build env bs).benches.filterMap (regWithTag env c.tolerance.tag)) k.regression) ∧
    ∀ (t : Nat) (c : RawCheck), tols[t]? = some c → ∃ (j : Nat) (u : Unprocessed), js[j]? = some u ∧ Applies c u := by
  unfold newChecks at h
  split at h
  · cases h
  rename_i inputs hin
  split at h
  · cases h
  rename_i ts hts
  obtain ⟨hil, hiall⟩ := collect_ok.1 hin
  obtain ⟨htl, htall⟩ := collect_ok.1 hts
  unfold matchAll at h
  simp only [matchLoop_eq] at h
  split at h
  · cases h
  rename_i idx hidx
  unfold checkMatches at hidx
  simp only at hidx
  split at hidx
  · rename_i hps
    simp only [Except.ok.injEq] at hidx
    simp only [List.isEmpty_iff, List.append_eq_nil_iff] at hps
    have hcl := classify_ok hps.2
    rw [hidx] at hcl
    obtain ⟨hcs, hcall⟩ := collect_ok.1 h
    have hidxl : idx.length = inputs.length := by
      have := congrArg List.length hcl
      simpa using this.symm
    have hit := hits_iff hts hk js
    refine ⟨by rw [hcs, List.length_zip, hidxl, hil]; simp, ?_, ?_⟩
    · intro j u hu
      obtain ⟨a, ha, hpa⟩ := hiall j u hu
      have hj : j < inputs.length := (List.getElem?_eq_some_iff.1 ha).1
      have hji : j < idx.length := by omega
      have hone : (List.range ts.length).filter (hits ts js · j) = [idx[j]] := by
        have := congrArg (fun l : List (List Nat) => l[j]?) hcl
        simp only [List.getElem?_map, List.getElem?_range hj, Option.map_some, List.getElem?_eq_getElem hji,
          Option.some.injEq] at this
        exact this
      have hmem : ∀ t', (t' < ts.length ∧ hits ts js t' j = true) ↔ t' = idx[j] := by
        intro t'
        have : t' ∈ (List.range ts.length).filter (hits ts js · j) ↔ t' ∈ [idx[j]] := by rw [hone]
        simpa using this
      have hhit : hits ts js idx[j] j = true := ((hmem _).2 rfl).2
      obtain ⟨c, u', hc, hu', happ⟩ := (hit _ _).1 hhit
      rw [hu] at hu'; cases hu'
      obtain ⟨k, hkk, hmk⟩ := hcall j (a, idx[j]) (by
        rw [List.getElem?_eq_some_iff]
        obtain ⟨h1, h2⟩ := List.getElem?_eq_some_iff.1 ha
        exact ⟨by rw [List.length_zip]; omega, by rw [List.getElem_zip, h2]⟩)
      refine ⟨idx[j], c, k, ?_, hc, hkk, ?_⟩
      · intro t'
        rw [← hmem t', hit]
        constructor
        · rintro ⟨c', hc', happ'⟩
          exact ⟨by have := (List.getElem?_eq_some_iff.1 hc').1; omega, c', u, hc', hu, happ'⟩
        · rintro ⟨_, c', u', hc', hu', happ'⟩
          rw [hu] at hu'; cases hu'
          exact ⟨c', hc', happ'⟩
      · obtain ⟨t, ht, hpt⟩ := htall _ c hc
        obtain ⟨p1, p2, p3, p4, p5⟩ := parseTolerance_ok hpt
        unfold makeCheck at hmk
        simp only [ht] at hmk
        split at hmk
        · cases hmk
        split at hmk
        · cases hmk
        rename_i b hb
        simp only [Except.ok.injEq] at hmk
        subst hmk
        simp only
        refine ⟨(C112_registered env bs).2.2.2 u a hpa, (parseInput_ok hpa).2, by rw [p3]; exact p4, ?_⟩
        rw [← (C112_tolerances env _ _ _ p2).1]
        exact findBest_some hb
    · intro t c hc
      obtain ⟨t', ht', _⟩ := htall t c hc
      have htlt : t < ts.length := (List.getElem?_eq_some_iff.1 ht').1
      by_contra hno
      have hempty : (List.range inputs.length).filter (hits ts js t) = [] := by
        rw [List.filter_eq_nil_iff]
        intro j _ hj
        obtain ⟨c', u, hc', hu, happ⟩ := (hit _ _).1 hj
        rw [hc] at hc'; cases hc'
        exact hno ⟨j, u, hu, happ⟩
      have : Problem.orphaned t ∈ orphans 0 ((List.range ts.length).map fun i =>
          (List.range inputs.length).filter (hits ts js i)) := by
        rw [mem_orphans (i := 0)]
        exact ⟨t, by rw [List.getElem?_map, List.getElem?_range htlt]; simp [hempty], by simp⟩
      rw [hps.1] at this
      cases this
  · cases hidx

/-- If the files parse, then a refusal for the matching names exactly the tolerances that apply to no input, the
inputs to which no tolerance applies, and the inputs to which several apply with the list of these. -/
theorem C112_problems {V : Type} {env : Env V} {bs : List (Bench V)} {tols : List RawCheck} {js : List Unprocessed}
    (hk : ∀ c ∈ tols, Keys c.input.content) {ps : List Problem}
    (h : newChecks env (Registry.build env bs) tols js = .error (.matching ps)) :
    ps ≠ [] ∧
    (∀ t, Problem.orphaned t ∈ ps ↔ ∃ c, tols[t]? = some c ∧ ∀ (j : Nat) (u : Unprocessed), js[j]? = some u → ¬ Applies c u) ∧
    (∀ j, Problem.uncovered j ∈ ps ↔ ∃ u, js[j]? = some u ∧ ∀ (t : Nat) (c : RawCheck), tols[t]? = some c → ¬ Applies c u) ∧
    ∀ j l, Problem.ambiguous j l ∈ ps ↔ ∃ u, js[j]? = some u ∧ 2 ≤ l.length ∧ l.Pairwise (· < ·) ∧
      ∀ t, t ∈ l ↔ ∃ c, tols[t]? = some c ∧ Applies c u := by
  have noCollect : ∀ {α β : Type} (f : α → Except Err β) (l : List α), (∀ a, f a ≠ .error (.matching ps)) →
      collect f l ≠ .error (.matching ps) := by
    intro α β f l hf
    induction l with
    | nil => simp [collect]
    | cons a l ih =>
      unfold collect
      cases ha : f a with
      | error e => intro he; simp only [Except.error.injEq] at he; exact hf a (by rw [ha, he])
      | ok b =>
        simp only
        cases hc : collect f l with
        | error e => intro he; simp only [Except.error.injEq] at he; exact ih (by rw [hc, he])
        | ok bs => simp
  unfold newChecks at h
  split at h
  · rename_i e he
    simp only [Except.error.injEq] at h
    subst h
    refine absurd he (noCollect _ _ ?_)
    intro u; unfold parseInput; split
    · simp
    · simp
    · split <;> simp
  rename_i inputs hin
  split at h
  · rename_i e he
    simp only [Except.error.injEq] at h
    subst h
    refine absurd he (noCollect _ _ ?_)
    intro u; unfold parseTolerance; split
    · simp
    · split
      · simp
      · split <;> simp
  rename_i ts hts
  obtain ⟨hil, hiall⟩ := collect_ok.1 hin
  obtain ⟨htl, htall⟩ := collect_ok.1 hts
  have hit := hits_iff hts hk js
  unfold matchAll at h
  simp only [matchLoop_eq] at h
  split at h
  · rename_i ps' hps
    simp only [Except.error.injEq, Err.matching.injEq] at h
    subst h
    unfold checkMatches at hps
    simp only at hps
    split at hps
    · cases hps
    rename_i hne
    simp only [Except.error.injEq] at hps
    have hmem : ∀ p, p ∈ ps' ↔ p ∈ orphans 0 ((List.range ts.length).map fun i =>
          (List.range inputs.length).filter (hits ts js i)) ∨
        p ∈ (classify 0 ((List.range inputs.length).map fun j => (List.range ts.length).filter (hits ts js · j))).1 := by
      intro p; rw [← hps, List.mem_append]
    have hrow : ∀ (n : Nat) (f : Nat → List Nat) (i : Nat) (l : List Nat),
        ((List.range n).map f)[i]? = some l ↔ i < n ∧ f i = l := by
      intro n f i l
      rw [List.getElem?_map]
      by_cases hi : i < n
      · rw [List.getElem?_range hi]; simp [hi]
      · rw [List.getElem?_eq_none (by simpa using hi)]; simp [hi]
    refine ⟨?_, ?_, ?_, ?_⟩
    · rintro rfl
      rw [hps] at hne
      simp at hne
    · intro t
      rw [hmem, mem_orphans (i := 0), mem_classify]
      simp only [hrow]
      constructor
      · rintro (⟨i, ⟨hi, he⟩, hp⟩ | ⟨i, _, hp⟩ | ⟨i, l, _, _, hp⟩)
        · simp only [Nat.zero_add, Problem.orphaned.injEq] at hp
          subst hp
          have hi' : t < tols.length := by omega
          refine ⟨tols[t], List.getElem?_eq_getElem hi', ?_⟩
          intro j u hu happ
          have hj : j < inputs.length := by have := (List.getElem?_eq_some_iff.1 hu).1; omega
          exact List.filter_eq_nil_iff.1 he j (List.mem_range.2 hj)
            ((hit _ _).2 ⟨_, u, List.getElem?_eq_getElem hi', hu, happ⟩)
        · cases hp
        · cases hp
      · rintro ⟨c, hc, hno⟩
        left
        refine ⟨t, ⟨by have := (List.getElem?_eq_some_iff.1 hc).1; omega, ?_⟩, by simp⟩
        rw [List.filter_eq_nil_iff]
        intro j _ hj
        obtain ⟨c', u, hc', hu, happ⟩ := (hit _ _).1 hj
        rw [hc] at hc'; cases hc'
        exact hno j u hu happ
    · intro j
      rw [hmem, mem_orphans (i := 0), mem_classify]
      simp only [hrow]
      constructor
      · rintro (⟨i, _, hp⟩ | ⟨i, ⟨hi, he⟩, hp⟩ | ⟨i, l, _, _, hp⟩)
        · cases hp
        · simp only [Nat.zero_add, Problem.uncovered.injEq] at hp
          subst hp
          have hi' : j < js.length := by omega
          refine ⟨js[j], List.getElem?_eq_getElem hi', ?_⟩
          intro t c hc happ
          have ht : t < ts.length := by have := (List.getElem?_eq_some_iff.1 hc).1; omega
          exact List.filter_eq_nil_iff.1 he t (List.mem_range.2 ht)
            ((hit _ _).2 ⟨c, _, hc, List.getElem?_eq_getElem hi', happ⟩)
        · cases hp
      · rintro ⟨u, hu, hno⟩
        right; left
        refine ⟨j, ⟨by have := (List.getElem?_eq_some_iff.1 hu).1; omega, ?_⟩, by simp⟩
        rw [List.filter_eq_nil_iff]
        intro t _ ht
        obtain ⟨c, u', hc, hu', happ⟩ := (hit _ _).1 ht
        rw [hu] at hu'; cases hu'
        exact hno t c hc happ
    · intro j l
      rw [hmem, mem_orphans (i := 0), mem_classify]
      simp only [hrow]
      have hfil : ∀ u, js[j]? = some u → ∀ t, t ∈ (List.range ts.length).filter (hits ts js · j) ↔
          ∃ c, tols[t]? = some c ∧ Applies c u := by
        intro u hu t
        rw [List.mem_filter, List.mem_range, hit]
        constructor
        · rintro ⟨_, c, u', hc, hu', happ⟩
          rw [hu] at hu'; cases hu'
          exact ⟨c, hc, happ⟩
        · rintro ⟨c, hc, happ⟩
          exact ⟨by have := (List.getElem?_eq_some_iff.1 hc).1; omega, c, u, hc, hu, happ⟩
      have hsorted : ((List.range ts.length).filter (hits ts js · j)).Pairwise (· < ·) :=
        List.Pairwise.filter _ List.pairwise_lt_range
      constructor
      · rintro (⟨i, _, hp⟩ | ⟨i, _, hp⟩ | ⟨i, l', ⟨hi, he⟩, hl, hp⟩)
        · cases hp
        · cases hp
        · simp only [Nat.zero_add, Problem.ambiguous.injEq] at hp
          obtain ⟨rfl, rfl⟩ := hp
          have hi' : j < js.length := by omega
          have hu := List.getElem?_eq_getElem hi'
          refine ⟨js[j], hu, hl, ?_, ?_⟩
          · rw [← he]; exact hsorted
          · intro t; rw [← he]; exact hfil _ hu t
      · rintro ⟨u, hu, hl, hso, hall⟩
        right; right
        refine ⟨j, l, ⟨by have := (List.getElem?_eq_some_iff.1 hu).1; omega, ?_⟩, hl, by simp⟩
        have hext : ∀ t, t ∈ (List.range ts.length).filter (hits ts js · j) ↔ t ∈ l := by
          intro t; rw [hfil u hu t, hall t]
        have hnd1 : ((List.range ts.length).filter (hits ts js · j)).Nodup := hsorted.imp (fun h => Nat.ne_of_lt h)
        have hnd2 : l.Nodup := hso.imp (fun h => Nat.ne_of_lt h)
        have hperm := (List.perm_ext_iff_of_nodup hnd1 hnd2).2 hext
        exact hperm.eq_of_pairwise (fun a b _ _ h1 h2 => absurd h1 (Nat.lt_asymm h2)) hsorted hso
  · rename_i idx hidx
    refine absurd h (noCollect _ _ ?_)
    intro p; unfold makeCheck; split
    · simp
    · split
      · simp
      · split <;> simp

/-- Conversely, if inputs and tolerances parse, the matching is complete and unambiguous and some benchmark of the
tolerance accepts each input, then `check verify` accepts the files. -/
theorem C112_accepts {V : Type} {env : Env V} {bs : List (Bench V)} {tols : List RawCheck} {js : List Unprocessed}
    (hk : ∀ c ∈ tols, Keys c.input.content)
    (hin : ∀ u ∈ js, ∃ a, parseInput env (Registry.build env bs) u = .ok a)
    (htol : ∀ c ∈ tols, ∃ t, parseTolerance env ((Registry.build env bs).tolerances env) c = .ok t)
    (hone : ∀ u ∈ js, ∃ t : Nat, ∀ t' : Nat, (∃ c, tols[t']? = some c ∧ Applies c u) ↔ t' = t)
    (hsome : ∀ c ∈ tols, ∃ u ∈ js, Applies c u)
    (hbest : ∀ u ∈ js, ∀ c ∈ tols, Applies c u → ∀ a, parseInput env (Registry.build env bs) u = .ok a →
      ∃ b ∈ (Registry.build env bs).benches.filterMap (regWithTag env c.tolerance.tag), (b.bench.tryMatch a).score ≠ none) :
    ∃ cs, newChecks env (Registry.build env bs) tols js = .ok cs := by
  have total : ∀ {α β : Type} (f : α → Except Err β) (l : List α), (∀ a ∈ l, ∃ b, f a = .ok b) →
      ∃ r, collect f l = .ok r := by
    intro α β f l
    induction l with
    | nil => intro _; exact ⟨[], rfl⟩
    | cons a l ih =>
      intro hf
      obtain ⟨b, hb⟩ := hf a List.mem_cons_self
      obtain ⟨r, hr⟩ := ih fun x hx => hf x (List.mem_cons_of_mem _ hx)
      exact ⟨b :: r, by unfold collect; rw [hb]; simp only; rw [hr]⟩
  have hmatch : ∀ ps, newChecks env (Registry.build env bs) tols js ≠ .error (.matching ps) := by
    intro ps h
    obtain ⟨hne, h1, h2, h3⟩ := C112_problems hk h
    obtain ⟨p, hp⟩ := List.exists_mem_of_ne_nil _ hne
    cases p with
    | orphaned t =>
      obtain ⟨c, hc, hno⟩ := (h1 t).1 hp
      obtain ⟨u, hu, happ⟩ := hsome c (List.mem_of_getElem? hc)
      obtain ⟨j, hj⟩ := List.mem_iff_getElem?.1 hu
      exact hno j u hj happ
    | uncovered j =>
      obtain ⟨u, hu, hno⟩ := (h2 j).1 hp
      obtain ⟨t, ht⟩ := hone u (List.mem_of_getElem? hu)
      obtain ⟨c, hc, happ⟩ := (ht t).2 rfl
      exact hno t c hc happ
    | ambiguous j l =>
      obtain ⟨u, hu, hl, hso, hall⟩ := (h3 j l).1 hp
      obtain ⟨t, ht⟩ := hone u (List.mem_of_getElem? hu)
      rcases l with _ | ⟨x, _ | ⟨y, l⟩⟩
      · simp at hl
      · simp at hl
      · have hx := (ht x).1 ((hall x).1 (by simp))
        have hy := (ht y).1 ((hall y).1 (by simp))
        have := (List.pairwise_cons.1 hso).1 y (by simp)
        omega
  obtain ⟨inputs, hinputs⟩ := total _ js hin
  obtain ⟨ts, hts⟩ := total _ tols htol
  obtain ⟨hil, hiall⟩ := collect_ok.1 hinputs
  obtain ⟨htl, htall⟩ := collect_ok.1 hts
  have hit := hits_iff hts hk js
  unfold newChecks at hmatch ⊢
  rw [hinputs, hts] at hmatch ⊢
  simp only at hmatch ⊢
  unfold matchAll at hmatch ⊢
  simp only [matchLoop_eq] at hmatch ⊢
  split at hmatch
  · rename_i ps _
    exact absurd rfl (hmatch ps)
  rename_i idx hidx
  unfold checkMatches at hidx
  simp only at hidx
  split at hidx
  · rename_i hps
    simp only [Except.ok.injEq] at hidx
    simp only [List.isEmpty_iff, List.append_eq_nil_iff] at hps
    have hcl := classify_ok hps.2
    rw [hidx] at hcl
    apply total
    intro p hp
    obtain ⟨j, hj, hpj⟩ := List.mem_iff_getElem.1 hp
    rw [List.length_zip] at hj
    rw [List.getElem_zip] at hpj
    have hj1 : j < inputs.length := by omega
    have hj2 : j < idx.length := by omega
    have hrow : (List.range ts.length).filter (hits ts js · j) = [idx[j]] := by
      have := congrArg (fun l : List (List Nat) => l[j]?) hcl
      simp only [List.getElem?_map, List.getElem?_range hj1, Option.map_some, List.getElem?_eq_getElem hj2,
        Option.some.injEq] at this
      exact this
    have hm : idx[j] ∈ (List.range ts.length).filter (hits ts js · j) := by rw [hrow]; simp
    rw [List.mem_filter] at hm
    obtain ⟨c, u, hc, hu, happ⟩ := (hit _ _).1 hm.2
    obtain ⟨t, ht, hpt⟩ := htall _ c hc
    obtain ⟨a, ha, hpa⟩ := hiall j u hu
    rw [List.getElem?_eq_getElem hj1] at ha
    cases ha
    obtain ⟨b, hb, hsc⟩ := hbest u (List.mem_of_getElem? hu) c (List.mem_of_getElem? hc) happ _ hpa
    obtain ⟨p1, p2, _⟩ := parseTolerance_ok hpt
    rw [← (C112_tolerances env _ _ _ p2).1] at hb
    subst hpj
    unfold makeCheck
    simp only [ht]
    rw [if_neg (by
      simp only [ne_eq, Decidable.not_not]
      rw [p1, (C112_registered env bs).2.2.2 u _ hpa]
      exact happ.1)]
    cases hf : findBest (fun b => (b.bench.tryMatch inputs[j]).score) t.entry.regs with
    | none => exact absurd (findBest_none.1 hf b hb) hsc
    | some b' => exact ⟨_, rfl⟩
  · cases hidx

/-- The assertion on tags and the index in `match_all` never panic. -/
theorem C112_no_panic {V : Type} {env : Env V} {bs : List (Bench V)} {tols : List RawCheck} {js : List Unprocessed}
    (hk : ∀ c ∈ tols, Keys c.input.content) : newChecks env (Registry.build env bs) tols js ≠ .error .panic := by
  have noCollect : ∀ {α β : Type} (f : α → Except Err β) (l : List α), (∀ a ∈ l, f a ≠ .error .panic) →
      collect f l ≠ .error .panic := by
    intro α β f l hf
    induction l with
    | nil => simp [collect]
    | cons a l ih =>
      unfold collect
      cases ha : f a with
      | error e => intro he; simp only [Except.error.injEq] at he; exact hf a List.mem_cons_self (by rw [ha, he])
      | ok b =>
        simp only
        cases hc : collect f l with
        | error e =>
          intro he
          simp only [Except.error.injEq] at he
          exact ih (fun a ha => hf a (List.mem_cons_of_mem _ ha)) (by rw [hc, he])
        | ok bs => simp
  intro h
  unfold newChecks at h
  split at h
  · rename_i e he
    simp only [Except.error.injEq] at h
    subst h
    refine absurd he (noCollect _ _ ?_)
    intro u _; unfold parseInput; split
    · simp
    · simp
    · split <;> simp
  rename_i inputs hin
  split at h
  · rename_i e he
    simp only [Except.error.injEq] at h
    subst h
    refine absurd he (noCollect _ _ ?_)
    intro u _; unfold parseTolerance; split
    · simp
    · split
      · simp
      · split <;> simp
  rename_i ts hts
  obtain ⟨hil, hiall⟩ := collect_ok.1 hin
  obtain ⟨htl, htall⟩ := collect_ok.1 hts
  have hit := hits_iff hts hk js
  unfold matchAll at h
  simp only [matchLoop_eq] at h
  split at h
  · cases h
  rename_i idx hidx
  unfold checkMatches at hidx
  simp only at hidx
  split at hidx
  · rename_i hps
    simp only [Except.ok.injEq] at hidx
    simp only [List.isEmpty_iff, List.append_eq_nil_iff] at hps
    have hcl := classify_ok hps.2
    rw [hidx] at hcl
    have hidxl : idx.length = inputs.length := by
      have := congrArg List.length hcl
      simpa using this.symm
    refine absurd h (noCollect _ _ ?_)
    intro p hp
    obtain ⟨j, hj, hpj⟩ := List.mem_iff_getElem.1 hp
    rw [List.length_zip] at hj
    rw [List.getElem_zip] at hpj
    have hj1 : j < inputs.length := by omega
    have hj2 : j < idx.length := by omega
    have hj3 : j < js.length := by omega
    have hone : (List.range ts.length).filter (hits ts js · j) = [idx[j]] := by
      have := congrArg (fun l : List (List Nat) => l[j]?) hcl
      simp only [List.getElem?_map, List.getElem?_range hj1, Option.map_some, List.getElem?_eq_getElem hj2,
        Option.some.injEq] at this
      exact this
    have hm : idx[j] ∈ (List.range ts.length).filter (hits ts js · j) := by rw [hone]; simp
    rw [List.mem_filter] at hm
    obtain ⟨c, u, hc, hu, happ⟩ := (hit _ _).1 hm.2
    obtain ⟨t, ht, hpt⟩ := htall _ c hc
    obtain ⟨a, ha, hpa⟩ := hiall j u hu
    rw [List.getElem?_eq_getElem hj1] at ha
    cases ha
    have htag := (C112_registered env bs).2.2.2 u _ hpa
    subst hpj
    unfold makeCheck
    simp only [ht]
    rw [if_neg]
    · split <;> simp
    · simp only [ne_eq, Decidable.not_not]
      rw [(parseTolerance_ok hpt).1, htag]
      exact happ.1
  · cases hidx

/-- `check run` succeeds exactly if the tolerances were accepted, both result files have one entry per input, and
every check passes on the tolerance, the input and the two results at its position.  All tolerances must serialize.
Missing: that the two results belong to that input (`C112_wrong_results_refuted`) and to the benchmark that checks them
(`C112_other_benchmark_refuted`). -/
theorem C112_verdict_partial {V : Type} (env : Env V) (r : Registry V) (tols : List RawCheck) (js : List Unprocessed)
    (before after : List RawResult) (file : Bool) :
    (checkRun env r tols js before after file).result = .ok () ↔ ∃ cs, newChecks env r tols js = .ok cs ∧
      before.length = cs.length ∧ after.length = cs.length ∧
      ∀ (i : Nat) (c : Check V), cs[i]? = some c → (env.ser c.tolerance).isSome ∧ ∃ b a, before[i]? = some b ∧
        after[i]? = some a ∧ (Job.mk c b a).run = .pass := by
  unfold checkRun
  cases hc : newChecks env r tols js with
  | error e => simp
  | ok cs =>
    simp only [Except.ok.injEq, exists_eq_left']
    unfold makeJobs
    by_cases hb : before.length = cs.length
    · by_cases ha : after.length = cs.length
      · rw [if_neg (by simp [hb]), if_neg (by simp [ha])]
        simp only
        have hget : ∀ (j : Job V), j ∈ ((cs.zip (before.zip after)).map fun p => (⟨p.1, p.2.1, p.2.2⟩ : Job V)) ↔
            ∃ (i : Nat) (c : Check V) (b a : RawResult), cs[i]? = some c ∧ before[i]? = some b ∧ after[i]? = some a ∧
              j = ⟨c, b, a⟩ := by
          intro j
          rw [List.mem_map]
          constructor
          · rintro ⟨p, hp, rfl⟩
            obtain ⟨i, hi, he⟩ := List.mem_iff_getElem.1 hp
            simp only [List.length_zip] at hi
            rw [List.getElem_zip, List.getElem_zip] at he
            subst he
            exact ⟨i, _, _, _, List.getElem?_eq_getElem (by omega), List.getElem?_eq_getElem (by omega),
              List.getElem?_eq_getElem (by omega), rfl⟩
          · rintro ⟨i, c, b, a, h1, h2, h3, rfl⟩
            obtain ⟨g1, e1⟩ := List.getElem?_eq_some_iff.1 h1
            obtain ⟨g2, e2⟩ := List.getElem?_eq_some_iff.1 h2
            obtain ⟨g3, e3⟩ := List.getElem?_eq_some_iff.1 h3
            refine ⟨(c, b, a), ?_, rfl⟩
            rw [List.mem_iff_getElem]
            exact ⟨i, by simp only [List.length_zip]; omega, by rw [List.getElem_zip, List.getElem_zip, e1, e2, e3]⟩
        have hrun : ∀ (jobs : List (Job V)), (runJobs env jobs file).result = .ok () ↔
            ∀ j ∈ jobs, (env.ser j.check.tolerance).isSome ∧ j.run = .pass := by
          intro jobs
          unfold runJobs
          simp only
          split
          · rename_i hs
            simp only [reduceCtorEq, false_iff]
            intro hall
            obtain ⟨j, hj, hn⟩ := List.any_eq_true.1 hs
            have := (hall j hj).1
            cases h' : env.ser j.check.tolerance <;> simp_all
          · rename_i hs
            have hser : ∀ j ∈ jobs, (env.ser j.check.tolerance).isSome := by
              intro j hj
              cases h' : env.ser j.check.tolerance with
              | some v => rfl
              | none => exact absurd (List.any_eq_true.2 ⟨j, hj, by simp [h']⟩) hs
            split
            · rename_i he
              simp only [reduceCtorEq, false_iff]
              intro hall
              obtain ⟨o, ho, hoe⟩ := List.any_eq_true.1 he
              obtain ⟨j, hj, rfl⟩ := List.mem_map.1 ho
              rw [(hall j hj).2] at hoe
              simp at hoe
            · split
              · rename_i he
                simp only [reduceCtorEq, false_iff]
                intro hall
                obtain ⟨o, ho, hoe⟩ := List.any_eq_true.1 he
                obtain ⟨j, hj, rfl⟩ := List.mem_map.1 ho
                rw [(hall j hj).2] at hoe
                simp at hoe
              · rename_i h1 h2
                simp only [true_iff]
                intro j hj
                refine ⟨hser j hj, ?_⟩
                have hm := List.mem_map_of_mem (f := Job.run) hj
                cases ho : j.run with
                | pass => rfl
                | fail => exact absurd (List.any_eq_true.2 ⟨_, hm, by simp [ho]⟩) h2
                | error => exact absurd (List.any_eq_true.2 ⟨_, hm, by simp [ho]⟩) h1
        rw [hrun]
        constructor
        · intro hall
          refine ⟨hb, ha, ?_⟩
          intro i c hci
          have hi := (List.getElem?_eq_some_iff.1 hci).1
          have hbi := List.getElem?_eq_getElem (l := before) (show i < before.length by omega)
          have hai := List.getElem?_eq_getElem (l := after) (show i < after.length by omega)
          obtain ⟨h1, h2⟩ := hall _ ((hget _).2 ⟨i, c, _, _, hci, hbi, hai, rfl⟩)
          exact ⟨h1, _, _, hbi, hai, h2⟩
        · rintro ⟨_, _, hall⟩ j hj
          obtain ⟨i, c, b, a, h1, h2, h3, rfl⟩ := (hget j).1 hj
          obtain ⟨hs, b', a', hb', ha', hp⟩ := hall i c h1
          rw [h2] at hb'; cases hb'
          rw [h3] at ha'; cases ha'
          exact ⟨hs, hp⟩
      · rw [if_neg (by simp [hb]), if_pos ha]
        simp [ha]
    · rw [if_pos hb]
      simp [hb]

theorem mem_select {o : Outcome} : ∀ {k : Nat} {l : List Outcome} {i : Nat} {x : Outcome},
    (i, x) ∈ select o k l ↔ ∃ j, i = k + j ∧ l[j]? = some x ∧ x = o
  | k, [], i, x => by simp [select]
  | k, y :: l, i, x => by
    have hs : (∃ j, i = k + j ∧ (y :: l)[j]? = some x ∧ x = o) ↔
        (i = k ∧ y = x ∧ x = o) ∨ ∃ j, i = k + 1 + j ∧ l[j]? = some x ∧ x = o := by
      constructor
      · rintro ⟨j, hj, hx, ho⟩
        cases j with
        | zero => left; exact ⟨by omega, by simpa using hx, ho⟩
        | succ j => right; exact ⟨j, by omega, by simpa using hx, ho⟩
      · rintro (⟨h1, h2, h3⟩ | ⟨j, h1, h2, h3⟩)
        · exact ⟨0, by omega, by simp [h2], h3⟩
        · exact ⟨j + 1, by omega, by simpa using h2, h3⟩
    rw [hs]
    unfold select
    split
    · rename_i hy
      rw [List.mem_cons, mem_select]
      simp only [Prod.mk.injEq]
      constructor
      · rintro (⟨h1, h2⟩ | h)
        · left; exact ⟨h1, h2.symm, by rw [h2]; exact hy⟩
        · right; exact h
      · rintro (⟨h1, h2, _⟩ | h)
        · left; exact ⟨h1, h2.symm⟩
        · right; exact h
    · rename_i hy
      rw [mem_select]
      constructor
      · intro h; right; exact h
      · rintro (⟨_, h2, h3⟩ | h)
        · exact absurd (h2.trans h3) hy
        · exact h

/-- The outcome of a check: an error if the tolerance or the input has another type than the benchmark expects, and
otherwise what the benchmark says about its own tolerance and input, the results before and the results after. -/
theorem C112_outcome {V : Type} (c : Check V) (b a : RawResult) (o : Outcome) :
    (Job.mk c b a).run = o ↔
      (c.tolerance.ty = c.regression.reg.tolTy ∧ c.input.ty = c.regression.inTy ∧
        c.regression.reg.check c.tolerance.val c.input.val b.results a.results = o) ∨
      ((c.tolerance.ty ≠ c.regression.reg.tolTy ∨ c.input.ty ≠ c.regression.inTy) ∧ o = .error) := by
  unfold Job.run
  by_cases h1 : c.tolerance.ty = c.regression.reg.tolTy
  · by_cases h2 : c.input.ty = c.regression.inTy
    · simp [h1, h2]
    · simp [h1, h2, eq_comm]
  · simp [h1, eq_comm]

/-- What a run of the jobs reports when every tolerance serializes: the file, if asked for, has the outcome of every
check at its position whatever the result is; the checks printed are all the errors if there is one, otherwise all the
failures if there is one, otherwise all the checks. -/
theorem C112_report {V : Type} (env : Env V) (jobs : List (Job V)) (file : Bool)
    (hs : ∀ j ∈ jobs, (env.ser j.check.tolerance).isSome) :
    (runJobs env jobs file).file = (if file then some (jobs.map Job.run) else none) ∧
    ∃ o, (∀ i x, (i, x) ∈ (runJobs env jobs file).printed ↔ x = o ∧ (jobs.map Job.run)[i]? = some o) ∧
      ((o = .error ∧ .error ∈ jobs.map Job.run ∧ (runJobs env jobs file).result = .error .checkErrors) ∨
       (o = .fail ∧ .error ∉ jobs.map Job.run ∧ .fail ∈ jobs.map Job.run ∧
          (runJobs env jobs file).result = .error .checkFailures) ∨
       (o = .pass ∧ (∀ x ∈ jobs.map Job.run, x = .pass) ∧ (runJobs env jobs file).result = .ok ())) := by
  have hno : (jobs.any fun j => (env.ser j.check.tolerance).isNone) = false := by
    rw [List.any_eq_false]
    intro j hj
    have := hs j hj
    cases h' : env.ser j.check.tolerance <;> simp_all
  have hsel : ∀ (o : Outcome) (i : Nat) (x : Outcome), (i, x) ∈ select o 0 (jobs.map Job.run) ↔
      x = o ∧ (jobs.map Job.run)[i]? = some o := by
    intro o i x
    rw [mem_select]
    constructor
    · rintro ⟨j, hj, hx, rfl⟩
      exact ⟨rfl, by rw [hj]; simpa using hx⟩
    · rintro ⟨rfl, hx⟩
      exact ⟨i, by omega, hx, rfl⟩
  unfold runJobs
  simp only [hno, Bool.false_eq_true, if_false]
  split
  · rename_i he
    have he' : Outcome.error ∈ jobs.map Job.run := by simpa using he
    exact ⟨rfl, .error, hsel _, Or.inl ⟨rfl, he', rfl⟩⟩
  · rename_i he
    have he' : Outcome.error ∉ jobs.map Job.run := by simpa using he
    split
    · rename_i hf
      have hf' : Outcome.fail ∈ jobs.map Job.run := by simpa using hf
      exact ⟨rfl, .fail, hsel _, Or.inr (Or.inl ⟨rfl, he', hf', rfl⟩)⟩
    · rename_i hf
      have hf' : Outcome.fail ∉ jobs.map Job.run := by simpa using hf
      refine ⟨rfl, .pass, hsel _, Or.inr (Or.inr ⟨rfl, ?_, rfl⟩)⟩
      intro x hx
      cases x with
      | pass => rfl
      | fail => exact absurd hx hf'
      | error => exact absurd hx he'

/-- The inputs recorded in the two result files are never compared with anything: files with the same results and any
other recorded inputs give the same report. -/
theorem C112_inputs_ignored {V : Type} (env : Env V) (r : Registry V) (tols : List RawCheck) (js : List Unprocessed)
    (before before' after after' : List RawResult) (file : Bool)
    (hb : before.map (·.results) = before'.map (·.results)) (ha : after.map (·.results) = after'.map (·.results)) :
    checkRun env r tols js before after file = checkRun env r tols js before' after' file := by
  have lb : before.length = before'.length := by simpa using congrArg List.length hb
  have la : after.length = after'.length := by simpa using congrArg List.length ha
  unfold checkRun
  cases newChecks env r tols js with
  | error e => rfl
  | ok cs =>
    simp only
    unfold makeJobs
    rw [lb, la]
    by_cases hlb : before'.length = cs.length
    swap
    · rw [if_pos hlb, if_pos hlb]
    by_cases hla : after'.length = cs.length
    swap
    · rw [if_pos hla, if_pos hla]
    rw [if_neg (by simp [hlb]), if_neg (by simp [hla]), if_neg (by simp [hlb]), if_neg (by simp [hla])]
    simp only
    have hj : ∀ (cs : List (Check V)) (b b' a a' : List RawResult), b.map (·.results) = b'.map (·.results) →
        a.map (·.results) = a'.map (·.results) →
        ((cs.zip (b.zip a)).map fun p => (⟨p.1, p.2.1, p.2.2⟩ : Job V)).map (fun j => (j.check, j.run)) =
        ((cs.zip (b'.zip a')).map fun p => (⟨p.1, p.2.1, p.2.2⟩ : Job V)).map (fun j => (j.check, j.run)) := by
      intro cs
      induction cs with
      | nil => intros; simp
      | cons c cs ih =>
        intro b b' a a' hb ha
        cases b with
        | nil =>
          cases b' with
          | nil => simp
          | cons y b' => simp at hb
        | cons x b =>
          cases b' with
          | nil => simp at hb
          | cons y b' =>
            cases a with
            | nil =>
              cases a' with
              | nil => simp
              | cons y a' => simp at ha
            | cons z a =>
              cases a' with
              | nil => simp at ha
              | cons w a' =>
                simp only [List.map_cons, List.cons.injEq] at hb ha
                simp only [List.zip_cons_cons, List.map_cons, List.cons.injEq]
                refine ⟨?_, ih b b' a a' hb.2 ha.2⟩
                simp only [Job.run, hb.1, ha.1]
    have hall := hj cs before before' after after' hb ha
    have h1 := congrArg (fun l => l.map Prod.snd) hall
    have h2 := congrArg (fun l => l.any fun p => (env.ser p.1.tolerance).isNone) hall
    simp only [List.map_map, List.any_map] at h1 h2
    unfold runJobs
    have e1 : ((cs.zip (before.zip after)).map fun p => (⟨p.1, p.2.1, p.2.2⟩ : Job V)).map Job.run =
        ((cs.zip (before'.zip after')).map fun p => (⟨p.1, p.2.1, p.2.2⟩ : Job V)).map Job.run := by
      simpa [List.map_map, Function.comp_def] using h1
    have e2 : (((cs.zip (before.zip after)).map fun p => (⟨p.1, p.2.1, p.2.2⟩ : Job V)).any
          fun j => (env.ser j.check.tolerance).isNone) =
        (((cs.zip (before'.zip after')).map fun p => (⟨p.1, p.2.1, p.2.2⟩ : Job V)).any
          fun j => (env.ser j.check.tolerance).isNone) := by
      simpa [List.any_map, Function.comp_def] using h2
    simp only [e1, e2]

/-! ### Concrete runs -/

namespace CheckDemo

/-- Inputs of type 0 have tag "in"; tolerances of types 1 and 2 both have tag "tol". -/
def env : Env Nat where
  tagOf := fun t => if t = 0 then "in" else "tol"
  deser := fun _ j => match j with
    | .num (.pos n) => some n
    | .obj _ => some 7
    | _ => none
  ser := fun a => if a.val = 9 then none else some .null

/-- Passes if the two results are equal. -/
def eqCheck (_ _ : Nat) (b a : Json) : Outcome :=
  match b, a with
  | .num (.pos x), .num (.pos y) => if x = y then .pass else .fail
  | _, _ => .error

def plain : Bench Nat := ⟨"plain", .real 0 (fun _ => .success 0) none⟩
def checked : Bench Nat := ⟨"checked", .real 0 (fun _ => .success 5) (some ⟨1, eqCheck⟩)⟩
def other : Bench Nat := ⟨"other", .real 0 (fun _ => .success 1) (some ⟨2, eqCheck⟩)⟩

def job (k : Nat) : Unprocessed := ⟨"in", .obj [("k", .num (.pos k)), ("l", .num (.pos 10))]⟩
def tol (k v : Nat) : RawCheck := ⟨⟨"in", .obj [("k", .num (.pos k))]⟩, ⟨"tol", .num (.pos v)⟩⟩
def res (i r : Nat) : RawResult := ⟨.num (.pos i), .num (.pos r)⟩

end CheckDemo

open CheckDemo in
/-- A file of two inputs with two tolerances is accepted, and its checks pass and fail as the results say. -/
example : (checkRun env (Registry.build env [checked]) [tol 2 3, tol 1 4] [job 1, job 2] [res 0 5, res 0 6]
      [res 0 5, res 0 6] true).file = some [.pass, .pass] ∧
    (checkRun env (Registry.build env [checked]) [tol 2 3, tol 1 4] [job 1, job 2] [res 0 5, res 0 6]
      [res 0 5, res 0 7] true).printed = [(1, .fail)] := by decide +kernel

open CheckDemo in
/-- A matching with an orphan, an input without a tolerance and an ambiguous input. -/
example : (match newChecks env (Registry.build env [checked]) [tol 1 3, tol 1 4, tol 5 5] [job 1, job 2] with
    | .error (.matching ps) => some ps
    | _ => none) = some [.orphaned 2, .ambiguous 0 [0, 1], .uncovered 1] := by decide +kernel

open CheckDemo in
/-- The benchmark that checks an input need not be the benchmark that produced the results: the search is restricted
to the benchmarks with the tolerance, while `run` takes the best of all. -/
theorem C112_other_benchmark_refuted : ∃ (env : Env Nat) (bs : List (Bench Nat)) (tols : List RawCheck)
    (js : List Unprocessed) (cs : List (Check Nat)) (c : Check Nat), newChecks env (Registry.build env bs) tols js = .ok cs ∧
      cs[0]? = some c ∧ ((Registry.build env bs).callee c.input).map (·.name) = some "plain" ∧
      c.regression.bench.name = "checked" :=
  ⟨env, [plain, checked], [tol 1 3], [job 1], [⟨⟨checked, 0, ⟨1, eqCheck⟩⟩, ⟨1, 3⟩, ⟨0, 7⟩⟩], _, rfl, rfl, rfl, rfl⟩

open CheckDemo in
/-- Two benchmarks whose tolerance types differ may share a tag without an error: the tolerance is parsed as the type
of the first, and the checks of the second always end in an error. -/
theorem C112_tolerance_type_refuted : ∃ (env : Env Nat) (bs : List (Bench Nat)) (tols : List RawCheck)
    (js : List Unprocessed), (∃ cs, newChecks env (Registry.build env bs) tols js = .ok cs) ∧
      ∀ before after, before.length = 1 → after.length = 1 →
        (checkRun env (Registry.build env bs) tols js before after true).result = .error .checkErrors := by
  refine ⟨env, [checked, other], [tol 1 3], [job 1], ⟨_, rfl⟩, ?_⟩
  intro before after hb ha
  obtain ⟨b, rfl⟩ := List.length_eq_one_iff.1 hb
  obtain ⟨a, rfl⟩ := List.length_eq_one_iff.1 ha
  rfl

open CheckDemo in
/-- The output file is documented to be written whatever the outcome is; a tolerance that does not serialize leaves no
file and no printed outcome, although every check ran. -/
theorem C112_output_refuted : ∃ (env : Env Nat) (bs : List (Bench Nat)) (tols : List RawCheck) (js : List Unprocessed)
    (before after : List RawResult),
    (checkRun env (Registry.build env bs) tols js before after true).file = none ∧
    (checkRun env (Registry.build env bs) tols js before after true).printed = [] ∧
    (checkRun env (Registry.build env bs) tols js before after true).result = .error .noOutput :=
  ⟨env, [checked], [tol 1 9], [job 1], [res 0 5], [res 0 6], rfl, rfl, rfl⟩

open CheckDemo in
/-- Results recorded for other inputs are compared without a complaint. -/
theorem C112_wrong_results_refuted : ∃ (env : Env Nat) (bs : List (Bench Nat)) (tols : List RawCheck)
    (js : List Unprocessed) (before after : List RawResult),
    (checkRun env (Registry.build env bs) tols js before after true).result = .ok () ∧
    before.map (·.input) ≠ after.map (·.input) :=
  ⟨env, [checked], [tol 1 3, tol 2 3], [job 1, job 2], [res 1 5, res 2 6], [res 2 5, res 1 6], rfl, by
    intro h; simp [res] at h⟩

end Verif.Runner
