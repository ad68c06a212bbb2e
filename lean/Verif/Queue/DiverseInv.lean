import Verif.Queue.DiverseLemmas

namespace Verif.Queue

variable {I A D : Type} [DecidableEq I] [DecidableEq A] [LinearOrder D]

/-- Holds in every history, ties included. -/
structure DWeak (l dl : Nat) (attr : I → Option A) (dk : Nat) (q : DQueue I A D) : Prop where
  ginv : Inv q.global
  gcap : q.global.capacity = l
  gauto : q.global.auto = false
  gL : q.global.searchL = l
  linv : ∀ a, BInv (q.loc a)
  lcap : ∀ a, (q.loc a).capacity = dl
  lauto : ∀ a, (q.loc a).auto = false
  lL : ∀ a, (q.loc a).searchL = dl
  qdl : q.dl = dl
  qdk : q.dk = dk
  qattr : q.attr = attr

theorem Inv.toB {X : Type} [DecidableEq X] {q : Queue X D} (h : Inv q) : BInv q :=
  ⟨h.sorted, h.cap, h.size_le, h.cursor_le⟩

/-- The local view of attribute `a`. -/
def proj (a : A) (g : List ((I × A) × D)) : List (I × D) :=
  (g.filter fun x => decide (x.1.2 = a)).map fun x => (x.1.1, x.2)

theorem mem_proj (a : A) (g : List ((I × A) × D)) (x : I × D) : x ∈ proj a g ↔ ((x.1, a), x.2) ∈ g := by
  unfold proj
  simp only [List.mem_map, List.mem_filter, decide_eq_true_eq]
  constructor
  · rintro ⟨⟨⟨i, b⟩, d⟩, ⟨h1, rfl⟩, rfl⟩; exact h1
  · intro h; exact ⟨_, ⟨h, rfl⟩, rfl⟩

theorem proj_length (a : A) (g : List ((I × A) × D)) :
    (proj a g).length = g.countP (fun x => decide (x.1.2 = a)) := by
  unfold proj; rw [List.length_map, List.countP_eq_length_filter]

theorem proj_strict (a : A) (g : List ((I × A) × D)) (h : g.Pairwise ltd) : (proj a g).Pairwise ltd := by
  unfold proj
  rw [List.pairwise_map]
  exact (h.sublist List.filter_sublist).imp (fun hab => hab)

/-- Holds when the distances offered are pairwise different. -/
structure DStrong (l dl : Nat) (cands : List ((I × A) × D)) (q : DQueue I A D) : Prop where
  spec : DiverseBest l dl cands q.global.contents
  locs : ∀ a, (q.loc a).contents = proj a q.global.contents
  keys : ∀ x ∈ q.global.contents, x.1.2 ∈ q.keys

theorem new_weak (l k dk : Nat) (hl : 1 ≤ l) (hd : 1 ≤ dk * l / k) (attr : I → Option A) :
    DWeak l (dk * l / k) attr dk (DQueue.new l k dk attr : DQueue I A D) := by
  refine ⟨?_, rfl, rfl, rfl, ?_, fun _ => rfl, fun _ => rfl, fun _ => rfl, rfl, rfl, rfl⟩
  · exact new_inv l hl
  · intro a; exact (new_inv _ hd).toB

theorem setLoc_loc (q : DQueue I A D) (a : A) (x : Queue I D) (b : A) :
    (q.setLoc a x).loc b = if b = a then x else q.loc b := rfl

theorem get_contents {X : Type} [DecidableEq X] (q : Queue X D) (i : Nat) : q.get i = q.contents[i]? := by
  simp [Queue.get, Queue.contents]

theorem isFull_iff {X : Type} [DecidableEq X] (q : Queue X D) (n : Nat) (ha : q.auto = false) (hc : q.capacity = n) :
    q.isFull = true ↔ q.contents.length = n := by
  rw [contents_length]; simp [Queue.isFull, ha, hc]

/-- Weak part of an insertion: no panic, and the four ways it can go. -/
theorem insert_cases (pad : D) (l dl dk : Nat) (hl : 1 ≤ l) (hdl : 1 ≤ dl) (attr : I → Option A) (q : DQueue I A D)
    (h : DWeak l dl attr dk q) (id : I) (dist : Option D) :
    ∃ q', q.insert pad id dist = some q' ∧ DWeak l dl attr dk q' := by
  unfold DQueue.insert
  rw [h.qattr]
  cases hat : attr id with
  | none => exact ⟨q, rfl, h⟩
  | some a =>
    simp only
    set ks := (if a ∈ q.keys then q.keys else a :: q.keys) with hks
    have hins : ∀ (b : A), ∃ lq, (q.loc b).insert pad id dist = some lq ∧ BInv lq ∧ lq.capacity = dl ∧
        lq.auto = false ∧ lq.searchL = dl := by
      intro b
      cases dist with
      | none => exact ⟨_, rfl, h.linv b, h.lcap b, h.lauto b, h.lL b⟩
      | some d =>
        obtain ⟨lq, h1, h2, -, h4, h5, h6⟩ := insert_spec pad (q.loc b) (h.linv b) (h.lauto b) id d
        exact ⟨lq, h1, h2, by rw [h4, h.lcap], h5, by rw [h6, h.lL]⟩
    have hgins : ∃ gq, q.global.insert pad (id, a) dist = some gq ∧ Inv gq ∧ gq.capacity = l ∧
        gq.auto = false ∧ gq.searchL = l := by
      obtain ⟨gq, h1, h2⟩ := insert_inv pad q.global h.ginv (id, a) dist
      cases dist with
      | none =>
        simp only [Queue.insert, Option.some.injEq] at h1
        subst h1
        exact ⟨_, rfl, h.ginv, h.gcap, h.gauto, h.gL⟩
      | some d =>
        obtain ⟨gq', h1', -, -, h4, h5, h6⟩ := insert_spec pad q.global h.ginv.toB h.gauto (id, a) d
        rw [h1] at h1'
        obtain rfl := Option.some.inj h1'
        exact ⟨gq, h1, h2, by rw [h4, h.gcap], h5, by rw [h6, h.gL]⟩
    obtain ⟨lq, hlq1, hlq2, hlq3, hlq4, hlq5⟩ := hins a
    obtain ⟨gq, hgq1, hgq2, hgq3, hgq4, hgq5⟩ := hgins
    have hmk : ∀ (gq : Queue (I × A) D) (b : A) (x : Queue I D) (f : A → Queue I D) (ks : List A), Inv gq → gq.capacity = l → gq.auto = false →
        gq.searchL = l → (∀ c, BInv (f c) ∧ (f c).capacity = dl ∧ (f c).auto = false ∧ (f c).searchL = dl) →
        DWeak l dl attr dk ({ q with global := gq, keys := ks, loc := f } : DQueue I A D) := by
      intro gq b x f ks h1 h2 h3 h4 h5
      exact ⟨h1, h2, h3, h4, fun c => (h5 c).1, fun c => (h5 c).2.1, fun c => (h5 c).2.2.1, fun c => (h5 c).2.2.2,
        h.qdl, h.qdk, h.qattr⟩
    have hset : ∀ c, BInv (if c = a then lq else q.loc c) ∧ (if c = a then lq else q.loc c).capacity = dl ∧
        (if c = a then lq else q.loc c).auto = false ∧ (if c = a then lq else q.loc c).searchL = dl := by
      intro c; split
      · exact ⟨hlq2, hlq3, hlq4, hlq5⟩
      · exact ⟨h.linv c, h.lcap c, h.lauto c, h.lL c⟩
    by_cases hlf : (q.loc a).isFull = true
    · rw [hlf]
      simp only [Bool.not_true, Bool.false_and, Bool.false_eq_true, if_false, if_true]
      have hlen := (isFull_iff (q.loc a) dl (h.lauto a) (h.lcap a)).1 hlf
      rw [h.qdl]
      simp only [checkedSub, hdl, if_true, get_contents]
      obtain ⟨w, hw⟩ : ∃ w, (q.loc a).contents[dl - 1]? = some w :=
        ⟨_, List.getElem?_eq_getElem (by omega)⟩
      simp only [hw, bind, Option.bind]
      cases dist with
      | none =>
        simp only [Bool.false_eq_true, if_false]
        exact ⟨_, rfl, h.ginv, h.gcap, h.gauto, h.gL, h.linv, h.lcap, h.lauto, h.lL, rfl, h.qdk, rfl⟩
      | some d =>
        by_cases hd : d < w.2
        · simp only [hd, decide_true, if_true, hlq1]
          obtain ⟨gq', h1, h2⟩ := remove_insert_inv pad q.global h.ginv h.gauto (w.1, a) (id, a) w.2 d hd
          obtain ⟨hr1, hr2, hr3, hr4⟩ := remove_bspec pad q.global h.ginv.toB (w.1, a) w.2
          obtain ⟨gq'', h1', -, -, h4, h5, h6⟩ :=
            insert_spec pad (q.global.remove pad (w.1, a) w.2).2 hr1 (by rw [hr3, h.gauto]) (id, a) d
          rw [h1] at h1'
          obtain rfl := Option.some.inj h1'
          rw [h1]
          refine ⟨_, rfl, ?_⟩
          have := hmk gq' a lq (fun b => if b = a then lq else q.loc b) ks h2 (by rw [h4, hr2, h.gcap]) h5
            (by rw [h6, hr4, h.gL]) hset
          exact ⟨this.1, this.2, this.3, this.4, this.5, this.6, this.7, this.8, rfl, h.qdk, rfl⟩
        · simp only [hd, decide_false, Bool.false_eq_true, if_false]
          exact ⟨_, rfl, h.ginv, h.gcap, h.gauto, h.gL, h.linv, h.lcap, h.lauto, h.lL, rfl, h.qdk, rfl⟩
    · rw [Bool.not_eq_true] at hlf
      rw [hlf]
      by_cases hgf : q.global.isFull = true
      · rw [hgf]
        simp only [Bool.not_true, Bool.and_false, Bool.false_eq_true, if_false]
        have hlen := (isFull_iff q.global l h.gauto h.gcap).1 hgf
        rw [h.gL]
        simp only [checkedSub, hl, if_true, get_contents]
        obtain ⟨z, hz⟩ : ∃ z, q.global.contents[l - 1]? = some z :=
          ⟨_, List.getElem?_eq_getElem (by omega)⟩
        simp only [hz, bind, Option.bind]
        cases dist with
        | none =>
          simp only [Bool.false_eq_true, if_false]
          exact ⟨_, rfl, h.ginv, h.gcap, h.gauto, h.gL, h.linv, h.lcap, h.lauto, h.lL, h.qdl, h.qdk, rfl⟩
        | some d =>
          by_cases hd : d < z.2
          · simp only [hd, decide_true, if_true, hlq1, hgq1]
            have hw1 := hmk gq a lq (fun b => if b = a then lq else q.loc b) ks hgq2 hgq3 hgq4 hgq5 hset
            split
            · refine ⟨_, rfl, ?_⟩
              have hset2 : ∀ c, let f := (fun b => if b = z.1.2 then
                  ((if z.1.2 = a then lq else q.loc z.1.2).remove pad z.1.1 z.2).2 else
                    (if b = a then lq else q.loc b))
                  BInv (f c) ∧ (f c).capacity = dl ∧ (f c).auto = false ∧ (f c).searchL = dl := by
                intro c
                simp only
                obtain ⟨s1, s2, s3, s4⟩ := hset z.1.2
                obtain ⟨r1, r2, r3, r4⟩ := remove_bspec pad (if z.1.2 = a then lq else q.loc z.1.2) s1 z.1.1 z.2
                by_cases hc : c = z.1.2
                · rw [if_pos hc]
                  exact ⟨r1, by rw [r2, s2], by rw [r3, s3], by rw [r4, s4]⟩
                · rw [if_neg hc]; exact hset c
              have := hmk gq a lq _ ks hgq2 hgq3 hgq4 hgq5 hset2
              exact ⟨this.1, this.2, this.3, this.4, this.5, this.6, this.7, this.8, h.qdl, h.qdk, rfl⟩
            · refine ⟨_, rfl, ?_⟩
              exact ⟨hw1.1, hw1.2, hw1.3, hw1.4, hw1.5, hw1.6, hw1.7, hw1.8, h.qdl, h.qdk, rfl⟩
          · simp only [hd, decide_false, Bool.false_eq_true, if_false]
            exact ⟨_, rfl, h.ginv, h.gcap, h.gauto, h.gL, h.linv, h.lcap, h.lauto, h.lL, h.qdl, h.qdk, rfl⟩
      · rw [Bool.not_eq_true] at hgf
        rw [hgf]
        simp only [Bool.not_false, Bool.and_self, if_true, bind, Option.bind, hlq1, hgq1]
        refine ⟨_, rfl, ?_⟩
        have hw1 := hmk gq a lq (fun b => if b = a then lq else q.loc b) ks hgq2 hgq3 hgq4 hgq5 hset
        exact ⟨hw1.1, hw1.2, hw1.3, hw1.4, hw1.5, hw1.6, hw1.7, hw1.8, h.qdl, h.qdk, rfl⟩

end Verif.Queue
