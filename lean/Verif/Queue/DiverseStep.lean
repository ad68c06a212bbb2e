import Verif.Queue.DiverseInv

namespace Verif.Queue

variable {I A D : Type} [DecidableEq I] [DecidableEq A] [LinearOrder D]

theorem countP_oi (p : (I × A) × D → Bool) (g : List ((I × A) × D)) (y : (I × A) × D) :
    (g.orderedInsert led y).countP p = g.countP p + (if p y then 1 else 0) := by
  rw [(List.perm_orderedInsert led y g).countP_eq, List.countP_cons]

theorem countP_without (p : (I × A) × D → Bool) (g : List ((I × A) × D)) (h : g.Pairwise ltd) (w : (I × A) × D)
    (hw : w ∈ g) : g.countP p = (without g w).countP p + (if p w then 1 else 0) := by
  rw [(perm_without g h w hw).countP_eq, List.countP_cons]

theorem length_without (g : List ((I × A) × D)) (h : g.Pairwise ltd) (w : (I × A) × D)
    (hw : w ∈ g) : g.length = (without g w).length + 1 := by
  rw [(perm_without g h w hw).length_eq, List.length_cons]

theorem mem_without (g : List ((I × A) × D)) (w x : (I × A) × D) : x ∈ without g w ↔ x ∈ g ∧ x ≠ w := by
  simp [without]

theorem best_reject_local {l dl : Nat} {c g : List ((I × A) × D)} (h : DiverseBest l dl c g) (y : (I × A) × D)
    (hy : g.countP (fun x => decide (x.1.2 = y.1.2)) = dl) (hlt : ∀ x ∈ g, x.1.2 = y.1.2 → x.2 < y.2) :
    DiverseBest l dl (c ++ [y]) g := by
  refine ⟨h.sorted, fun x hx => by simp [h.sub x hx], h.total, h.per, ?_⟩
  intro x hx hxg
  rcases List.mem_append.1 hx with hx | hx
  · exact h.best x hx hxg
  · simp only [List.mem_singleton] at hx
    subst hx
    left
    rw [← hy]
    apply List.countP_mono_left
    intro z hz hza
    simp only [decide_eq_true_eq] at hza ⊢
    exact ⟨hza, hlt z hz hza⟩

theorem best_reject_global {l dl : Nat} {c g : List ((I × A) × D)} (h : DiverseBest l dl c g) (y : (I × A) × D)
    (hl : g.length = l) (hlt : ∀ x ∈ g, x.2 < y.2) : DiverseBest l dl (c ++ [y]) g := by
  refine ⟨h.sorted, fun x hx => by simp [h.sub x hx], h.total, h.per, ?_⟩
  intro x hx hxg
  rcases List.mem_append.1 hx with hx | hx
  · exact h.best x hx hxg
  · simp only [List.mem_singleton] at hx
    subst hx
    exact Or.inr ⟨hl, hlt⟩

theorem best_add {l dl : Nat} {c g : List ((I × A) × D)} (h : DiverseBest l dl c g) (y : (I × A) × D)
    (hf : ∀ x ∈ g, x.2 ≠ y.2) (hl : g.length < l) (hc : g.countP (fun x => decide (x.1.2 = y.1.2)) < dl) :
    DiverseBest l dl (c ++ [y]) (g.orderedInsert led y) := by
  refine ⟨oi_strict g h.sorted y hf, ?_, ?_, ?_, ?_⟩
  · intro x hx
    rw [List.mem_orderedInsert] at hx
    rcases hx with rfl | hx
    · simp
    · simp [h.sub x hx]
  · rw [List.orderedInsert_length]; omega
  · intro a
    rw [countP_oi]
    split
    · rename_i ha
      simp only [decide_eq_true_eq] at ha
      subst ha; omega
    · exact h.per a
  · intro x hx hxg
    rw [List.mem_orderedInsert] at hxg
    push Not at hxg
    rcases List.mem_append.1 hx with hx | hx
    · rcases h.best x hx hxg.2 with hb | ⟨hb, -⟩
      · left; rw [countP_oi]; omega
      · omega
    · simp only [List.mem_singleton] at hx
      exact absurd hx hxg.1

theorem best_replace_local {l dl : Nat} {c g : List ((I × A) × D)} (h : DiverseBest l dl c g) (y w : (I × A) × D)
    (hf : ∀ x ∈ g, x.2 ≠ y.2) (hw : w ∈ g) (hwa : w.1.2 = y.1.2) (hyw : y.2 < w.2)
    (hc : g.countP (fun x => decide (x.1.2 = y.1.2)) = dl)
    (hworst : ∀ x ∈ g, x.1.2 = y.1.2 → x ≠ w → x.2 < w.2) :
    DiverseBest l dl (c ++ [y]) ((without g w).orderedInsert led y) := by
  have hlen := length_without g h.sorted w hw
  have htot := h.total
  refine ⟨oi_strict _ (h.sorted.sublist List.filter_sublist) y
    (fun x hx => hf x ((mem_without g w x).1 hx).1), ?_, ?_, ?_, ?_⟩
  · intro x hx
    rw [List.mem_orderedInsert] at hx
    rcases hx with rfl | hx
    · simp
    · simp [h.sub x ((mem_without g w x).1 hx).1]
  · rw [List.orderedInsert_length]; omega
  · intro a
    have hp := h.per a
    rw [countP_without _ g h.sorted w hw] at hp
    rw [countP_oi]
    rw [hwa] at hp
    exact hp
  · intro x hx hxg
    rw [List.mem_orderedInsert, mem_without] at hxg
    push Not at hxg
    rcases List.mem_append.1 hx with hx | hx
    · by_cases hxw : x = w
      · left
        subst hxw
        rw [countP_oi, if_pos (by simp [hwa, hyw])]
        have h1 := countP_without (fun z => decide (z.1.2 = y.1.2)) g h.sorted x hw
        rw [if_pos (by simp [hwa]), hc] at h1
        have h2 : (without g x).countP (fun z => decide (z.1.2 = y.1.2)) ≤
            (without g x).countP (fun z => decide (z.1.2 = x.1.2 ∧ z.2 < x.2)) := by
          apply List.countP_mono_left
          intro z hz hza
          rw [mem_without] at hz
          simp only [decide_eq_true_eq] at hza ⊢
          exact ⟨by rw [hza, hwa], hworst z hz.1 hza hz.2⟩
        omega
      · have hxg' : x ∉ g := fun hin => hxw (hxg.2 hin)
        rcases h.best x hx hxg' with hb | ⟨hb, hb2⟩
        · left
          rw [countP_without _ g h.sorted w hw] at hb
          rw [countP_oi]
          by_cases hpw : w.1.2 = x.1.2 ∧ w.2 < x.2
          · rw [if_pos (by simpa using hpw)] at hb
            rw [if_pos (by simp only [decide_eq_true_eq]; exact ⟨by rw [← hwa]; exact hpw.1, lt_trans hyw hpw.2⟩)]
            exact hb
          · rw [if_neg (by simpa using hpw)] at hb
            omega
        · right
          refine ⟨by rw [List.orderedInsert_length]; omega, ?_⟩
          intro z hz
          rw [List.mem_orderedInsert, mem_without] at hz
          rcases hz with rfl | hz
          · exact lt_trans hyw (hb2 w hw)
          · exact hb2 z hz.1
    · simp only [List.mem_singleton] at hx
      exact absurd hx hxg.1

theorem best_replace_global {l dl : Nat} {c g : List ((I × A) × D)} (h : DiverseBest l dl c g) (y z : (I × A) × D)
    (hf : ∀ x ∈ g, x.2 ≠ y.2) (hz : z ∈ g) (hyz : y.2 < z.2) (hl : g.length = l)
    (hc : g.countP (fun x => decide (x.1.2 = y.1.2)) < dl) (hworst : ∀ x ∈ g, x ≠ z → x.2 < z.2) :
    DiverseBest l dl (c ++ [y]) ((without g z).orderedInsert led y) := by
  have hlen := length_without g h.sorted z hz
  have htot := h.total
  have hle : ∀ x ∈ g, x.2 ≤ z.2 := by
    intro x hx
    by_cases hxz : x = z
    · rw [hxz]
    · exact le_of_lt (hworst x hx hxz)
  refine ⟨oi_strict _ (h.sorted.sublist List.filter_sublist) y
    (fun x hx => hf x ((mem_without g z x).1 hx).1), ?_, ?_, ?_, ?_⟩
  · intro x hx
    rw [List.mem_orderedInsert] at hx
    rcases hx with rfl | hx
    · simp
    · simp [h.sub x ((mem_without g z x).1 hx).1]
  · rw [List.orderedInsert_length]; omega
  · intro a
    have hp := h.per a
    have h1 := countP_without (fun x => decide (x.1.2 = a)) g h.sorted z hz
    rw [countP_oi]
    by_cases ha : y.1.2 = a
    · subst ha
      rw [if_pos (by simp)]
      omega
    · rw [if_neg (by simpa using ha)]; omega
  · intro x hx hxg
    rw [List.mem_orderedInsert, mem_without] at hxg
    push Not at hxg
    have hall : z.2 ≤ x.2 → (x ∉ g ∨ x = z) →
        ((without g z).orderedInsert led y).length = l ∧
        ∀ u ∈ (without g z).orderedInsert led y, u.2 < x.2 := by
      intro hzx hxx
      refine ⟨by rw [List.orderedInsert_length]; omega, ?_⟩
      intro u hu
      rw [List.mem_orderedInsert, mem_without] at hu
      rcases hu with rfl | hu
      · exact lt_of_lt_of_le hyz hzx
      · exact lt_of_lt_of_le (hworst u hu.1 hu.2) hzx
    rcases List.mem_append.1 hx with hx | hx
    · by_cases hxz : x = z
      · right; exact hall (by rw [hxz]) (Or.inr hxz)
      · have hxg' : x ∉ g := fun hin => hxz (hxg.2 hin)
        rcases h.best x hx hxg' with hb | ⟨hb, hb2⟩
        · by_cases hzx : z.2 < x.2
          · right; exact hall (le_of_lt hzx) (Or.inl hxg')
          · left
            rw [countP_without _ g h.sorted z hz, if_neg (by simp [hzx])] at hb
            rw [countP_oi]; omega
        · right; exact hall (le_of_lt (hb2 z hz)) (Or.inl hxg')
    · simp only [List.mem_singleton] at hx
      exact absurd hx hxg.1

/-- The last entry of a strictly sorted list. -/
theorem last_strict {X : Type} [DecidableEq X] (g : List (X × D)) (h : g.Pairwise ltd) (n : Nat) (hn : g.length = n)
    (z : X × D) (hz : g[n - 1]? = some z) : z ∈ g ∧ ∀ x ∈ g, x ≠ z → x.2 < z.2 := by
  obtain ⟨hlt, rfl⟩ := List.getElem?_eq_some_iff.1 hz
  refine ⟨List.getElem_mem _, ?_⟩
  intro x hx hne
  obtain ⟨i, hi, rfl⟩ := List.getElem_of_mem hx
  have : i ≠ n - 1 := by rintro rfl; exact hne rfl
  exact List.pairwise_iff_getElem.1 h i (n - 1) hi hlt (by omega)

theorem insert_strong (pad : D) (l dl dk : Nat) (hl : 1 ≤ l) (hdl : 1 ≤ dl) (attr : I → Option A) (q : DQueue I A D)
    (h : DWeak l dl attr dk q) (cands : List ((I × A) × D)) (hs : DStrong l dl cands q) (id : I) (a : A) (d : D)
    (hat : attr id = some a) (hfresh : ∀ x ∈ cands, x.2 ≠ d) (q' : DQueue I A D)
    (hq' : q.insert pad id (some d) = some q') : DStrong l dl (cands ++ [((id, a), d)]) q' := by
  have hst := hs.spec.sorted
  have hfg : ∀ x ∈ q.global.contents, x.2 ≠ d := fun x hx => hfresh x (hs.spec.sub x hx)
  have hlst : ∀ b, (q.loc b).contents.Pairwise ltd := by
    intro b; rw [hs.locs]; exact proj_strict b _ hst
  have hfl : ∀ b, ∀ x ∈ (q.loc b).contents, x.2 ≠ d := by
    intro b x hx
    rw [hs.locs, mem_proj] at hx
    exact hfg _ hx
  have hlcount : ∀ b, (q.loc b).contents.length = q.global.contents.countP (fun x => decide (x.1.2 = b)) := by
    intro b; rw [hs.locs, proj_length]
  have hper := hs.spec.per
  have htot := hs.spec.total
  unfold DQueue.insert at hq'
  rw [h.qattr, hat] at hq'
  simp only at hq'
  set ks := (if a ∈ q.keys then q.keys else a :: q.keys) with hks
  have hka : a ∈ ks := by rw [hks]; split <;> simp [*]
  have hkk : ∀ b ∈ q.keys, b ∈ ks := by intro b hb; rw [hks]; split <;> simp [hb]
  obtain ⟨lq, hlq1, hlq2, hlq3, -⟩ := insert_spec pad (q.loc a) (h.linv a) (h.lauto a) id d
  obtain ⟨gq, hgq1, hgq2, hgq3, -⟩ := insert_spec pad q.global h.ginv.toB h.gauto (id, a) d
  rw [h.lcap a] at hlq3
  rw [h.gcap] at hgq3
  have hext : ∀ b (l1 : List (I × D)) (g : List ((I × A) × D)), l1.Pairwise ltd → g.Pairwise ltd →
      (∀ x, x ∈ l1 ↔ ((x.1, b), x.2) ∈ g) → l1 = proj b g := by
    intro b l1 g h1 h2 h3
    apply ext_strict _ _ h1 (proj_strict b g h2)
    intro x; rw [mem_proj, h3]
  by_cases hlf : (q.loc a).isFull = true
  · rw [hlf] at hq'
    simp only [Bool.not_true, Bool.false_and, Bool.false_eq_true, if_false, if_true] at hq'
    have hlen := (isFull_iff (q.loc a) dl (h.lauto a) (h.lcap a)).1 hlf
    rw [h.qdl] at hq'
    simp only [checkedSub, hdl, if_true, get_contents] at hq'
    obtain ⟨w, hw⟩ : ∃ w, (q.loc a).contents[dl - 1]? = some w := ⟨_, List.getElem?_eq_getElem (by omega)⟩
    simp only [hw, bind, Option.bind] at hq'
    obtain ⟨hwm, hwl⟩ := last_strict _ (hlst a) dl hlen w hw
    have hwg : ((w.1, a), w.2) ∈ q.global.contents := by
      rw [hs.locs, mem_proj] at hwm; exact hwm
    have hworst : ∀ x ∈ q.global.contents, x.1.2 = a → x ≠ ((w.1, a), w.2) → x.2 < w.2 := by
      rintro ⟨⟨i, b⟩, e⟩ hx hxa hne
      simp only at hxa
      subst hxa
      refine hwl (i, e) (by rw [hs.locs, mem_proj]; exact hx) ?_
      rintro rfl; exact hne rfl
    by_cases hd : d < w.2
    · simp only [hd, decide_true, if_true, hlq1] at hq'
      obtain ⟨hr1, hr2, hr3, -⟩ := remove_bspec pad q.global h.ginv.toB (w.1, a) w.2
      have hrc := remove_contents pad q.global h.ginv.toB hst ((w.1, a), w.2) hwg
      simp only at hrc
      obtain ⟨gq', hg1, hg2, hg3, -⟩ :=
        insert_spec pad (q.global.remove pad (w.1, a) w.2).2 hr1 (by rw [hr3, h.gauto]) (id, a) d
      rw [hg1] at hq'
      obtain rfl := Option.some.inj hq'
      have hlw := length_without _ hst _ hwg
      have hgc : gq'.contents = (without q.global.contents ((w.1, a), w.2)).orderedInsert led ((id, a), d) := by
        rw [hg3, hrc, hr2, h.gcap, List.take_of_length_le]
        rw [List.orderedInsert_length]; omega
      have hnew := best_replace_local hs.spec ((id, a), d) ((w.1, a), w.2) hfg hwg rfl hd
        (by rw [← hlcount a]; exact hlen) hworst
      have hlc : lq.contents = (without (q.loc a).contents w).orderedInsert led (id, d) := by
        rw [hlq3]; exact (oi_full _ (hlst a) dl hlen w (id, d) hw (le_of_lt hd)).1
      refine ⟨?_, ?_, ?_⟩
      · show DiverseBest l dl _ gq'.contents
        rw [hgc]; exact hnew
      · intro b
        show (if b = a then lq else q.loc b).contents = proj b gq'.contents
        have hgs : gq'.contents.Pairwise ltd := by rw [hgc]; exact hnew.sorted
        split
        · rename_i hb
          subst hb
          apply hext _ _ _ _ hgs
          · intro x
            rw [hlc, hgc, List.mem_orderedInsert, List.mem_orderedInsert, mem_without]
            simp only [without, List.mem_filter, decide_eq_true_eq, hs.locs, mem_proj, Prod.ext_iff]
            grind
          · rw [hlc]
            exact oi_strict _ ((hlst b).sublist List.filter_sublist) _
              (fun x hx => hfl b x (List.mem_filter.1 hx).1)
        · rename_i hb
          apply hext _ _ _ (hlst b) hgs
          intro x
          rw [hgc, List.mem_orderedInsert, mem_without, hs.locs, mem_proj]
          simp only [Prod.ext_iff]
          grind
      · intro x hx
        have hx : x ∈ gq'.contents := hx
        rw [hgc, List.mem_orderedInsert, mem_without] at hx
        rcases hx with rfl | hx
        · exact hka
        · exact hkk _ (hs.keys x hx.1)
    · simp only [hd, decide_false, Bool.false_eq_true, if_false] at hq'
      obtain rfl := Option.some.inj hq'
      have hwd : w.2 < d := lt_of_le_of_ne (not_lt.1 hd) (hfl a w hwm)
      refine ⟨best_reject_local hs.spec _ (by rw [← hlcount a]; exact hlen) ?_, hs.locs,
        fun x hx => hkk _ (hs.keys x hx)⟩
      intro x hx hxa
      by_cases hxw : x = ((w.1, a), w.2)
      · rw [hxw]; exact hwd
      · exact lt_trans (hworst x hx hxa hxw) hwd
  · have hlfb := hlf
    rw [Bool.not_eq_true] at hlfb
    rw [hlfb] at hq'
    have hlne : (q.loc a).contents.length ≠ dl := fun hc => hlf ((isFull_iff _ dl (h.lauto a) (h.lcap a)).2 hc)
    have hllt : (q.loc a).contents.length < dl := by
      have := hper a; rw [← hlcount a] at this; omega
    have hlc : lq.contents = (q.loc a).contents.orderedInsert led (id, d) := by
      rw [hlq3, List.take_of_length_le]
      rw [List.orderedInsert_length]; omega
    have hls : lq.contents.Pairwise ltd := by rw [hlc]; exact oi_strict _ (hlst a) _ (hfl a)
    by_cases hgf : q.global.isFull = true
    · rw [hgf] at hq'
      simp only [Bool.not_true, Bool.and_false, Bool.false_eq_true, if_false] at hq'
      have hlen := (isFull_iff q.global l h.gauto h.gcap).1 hgf
      rw [h.gL] at hq'
      simp only [checkedSub, hl, if_true, get_contents] at hq'
      obtain ⟨z, hz⟩ : ∃ z, q.global.contents[l - 1]? = some z := ⟨_, List.getElem?_eq_getElem (by omega)⟩
      simp only [hz, bind, Option.bind] at hq'
      obtain ⟨hzm, hzl⟩ := last_strict _ hst l hlen z hz
      by_cases hd : d < z.2
      · simp only [hd, decide_true, if_true, hlq1, hgq1] at hq'
        have hgc : gq.contents = (without q.global.contents z).orderedInsert led ((id, a), d) := by
          rw [hgq3]; exact (oi_full _ hst l hlen z ((id, a), d) hz (le_of_lt hd)).1
        have hnew := best_replace_global hs.spec ((id, a), d) z hfg hzm hd hlen (by rw [← hlcount a]; exact hllt) hzl
        have hgs : gq.contents.Pairwise ltd := by rw [hgc]; exact hnew.sorted
        have hkz : z.1.2 ∈ ks := hkk _ (hs.keys z hzm)
        rw [if_pos (by exact hkz)] at hq'
        obtain rfl := Option.some.inj hq'
        refine ⟨?_, ?_, ?_⟩
        · show DiverseBest l dl _ gq.contents
          rw [hgc]; exact hnew
        · intro b
          show (if b = z.1.2 then ((if z.1.2 = a then lq else q.loc z.1.2).remove pad z.1.1 z.2).2 else
            (if b = a then lq else q.loc b)).contents = proj b gq.contents
          obtain ⟨⟨zi, zb⟩, zd⟩ := z
          simp only at hd hkz ⊢
          by_cases hbz : b = zb
          · subst hbz
            rw [if_pos rfl]
            by_cases hba : b = a
            · subst hba
              rw [if_pos rfl]
              have hzin : (zi, zd) ∈ lq.contents := by
                rw [hlc, List.mem_orderedInsert, hs.locs, mem_proj]; exact Or.inr hzm
              have := remove_contents pad lq hlq2 hls (zi, zd) hzin
              simp only at this
              rw [this]
              apply hext _ _ _ (hls.sublist List.filter_sublist) hgs
              intro x
              rw [hgc, List.mem_orderedInsert, mem_without]
              simp only [without, List.mem_filter, decide_eq_true_eq]
              rw [hlc, List.mem_orderedInsert, hs.locs, mem_proj]
              have hne : d ≠ zd := ne_of_lt hd
              simp only [Prod.ext_iff, ne_eq]
              grind
            · rw [if_neg hba]
              have hzin : (zi, zd) ∈ (q.loc b).contents := by rw [hs.locs, mem_proj]; exact hzm
              have := remove_contents pad (q.loc b) (h.linv b) (hlst b) (zi, zd) hzin
              simp only at this
              rw [this]
              apply hext _ _ _ ((hlst b).sublist List.filter_sublist) hgs
              intro x
              rw [hgc, List.mem_orderedInsert, mem_without]
              simp only [without, List.mem_filter, decide_eq_true_eq]
              rw [hs.locs, mem_proj]
              simp only [Prod.ext_iff, ne_eq]
              grind
          · rw [if_neg hbz]
            split
            · rename_i hba
              subst hba
              apply hext _ _ _ hls hgs
              intro x
              rw [hlc, hgc, List.mem_orderedInsert, List.mem_orderedInsert, mem_without, hs.locs, mem_proj]
              simp only [Prod.ext_iff, ne_eq]
              grind
            · rename_i hba
              apply hext _ _ _ (hlst b) hgs
              intro x
              rw [hgc, List.mem_orderedInsert, mem_without, hs.locs, mem_proj]
              simp only [Prod.ext_iff, ne_eq]
              grind
        · intro x hx
          have hx : x ∈ gq.contents := hx
          rw [hgc, List.mem_orderedInsert, mem_without] at hx
          rcases hx with rfl | hx
          · exact hka
          · exact hkk _ (hs.keys x hx.1)
      · simp only [hd, decide_false, Bool.false_eq_true, if_false] at hq'
        obtain rfl := Option.some.inj hq'
        have hzd : z.2 < d := lt_of_le_of_ne (not_lt.1 hd) (hfg z hzm)
        refine ⟨best_reject_global hs.spec _ hlen ?_, hs.locs, fun x hx => hkk _ (hs.keys x hx)⟩
        intro x hx
        by_cases hxz : x = z
        · rw [hxz]; exact hzd
        · exact lt_trans (hzl x hx hxz) hzd
    · have hgfb := hgf
      rw [Bool.not_eq_true] at hgfb
      rw [hgfb] at hq'
      simp only [Bool.not_false, Bool.and_self, if_true, bind, Option.bind, hlq1, hgq1] at hq'
      obtain rfl := Option.some.inj hq'
      have hgne : q.global.contents.length ≠ l := fun hc => hgf ((isFull_iff _ l h.gauto h.gcap).2 hc)
      have hgc : gq.contents = q.global.contents.orderedInsert led ((id, a), d) := by
        rw [hgq3, List.take_of_length_le]
        rw [List.orderedInsert_length]; omega
      have hnew := best_add hs.spec ((id, a), d) hfg (by omega) (by rw [← hlcount a]; exact hllt)
      have hgs : gq.contents.Pairwise ltd := by rw [hgc]; exact hnew.sorted
      refine ⟨?_, ?_, ?_⟩
      · show DiverseBest l dl _ gq.contents
        rw [hgc]; exact hnew
      · intro b
        show (if b = a then lq else q.loc b).contents = proj b gq.contents
        split
        · rename_i hba
          subst hba
          apply hext _ _ _ hls hgs
          intro x
          rw [hlc, hgc, List.mem_orderedInsert, List.mem_orderedInsert, hs.locs, mem_proj]
          simp only [Prod.ext_iff]
          grind
        · rename_i hba
          apply hext _ _ _ (hlst b) hgs
          intro x
          rw [hgc, List.mem_orderedInsert, hs.locs, mem_proj]
          simp only [Prod.ext_iff]
          grind
      · intro x hx
        have hx : x ∈ gq.contents := hx
        rw [hgc, List.mem_orderedInsert] at hx
        rcases hx with rfl | hx
        · exact hka
        · exact hkk _ (hs.keys x hx)

end Verif.Queue
