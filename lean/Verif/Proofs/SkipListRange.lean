import Verif.Proofs.SkipListForEach
/-! # Skip list: FindRange, laws of the specification, construction from a map -/
namespace Stl4go
variable {K V : Type}
variable {impl : SLImpl K} {sl : SL K V} {ids : List Nat} {m : List (K × V)}

theorem SLInv.behaves (hl : impl.Lawful) (h : SLInv impl.less sl ids m) : sl.Behaves impl m := by
  intro ops
  obtain ⟨sl', _, a1, _⟩ := h.run hl ops
  exact ⟨sl', a1⟩

theorem SLInv.findRange (hl : impl.Lawful) (h : SLInv impl.less sl ids m) (first last : K) :
    (sl.findRange impl first last >>= sl.observeIter) =
      if m.any (fun e => impl.less last e.1 && impl.less e.1 first) then .panic
      else .ret (m.filter (fun e => !(impl.less e.1 first) && !(impl.less last e.1))) := by
  have hw := hl.weak
  obtain ⟨iG1, iH1, iS1, G1, H1, S1, p1⟩ := h.pos hl first
  obtain ⟨iG2, iH2, iS2, G2, H2, S2, p2⟩ := h.pos hl last
  have hr : (sl.findRange impl first last) = .ret { node := (iH1 ++ iS1).head?, stop := iS2.head? } := by
    simp [-List.head?_append, SL.findRange, h.lowerBound hl p1, h.upperBound hl p2]
  rw [hr, Outcome.ret_bind]
  have aG1 : ∀ e ∈ G1, impl.less e.1 first = true := p1.sp.go
  have aR1 : ∀ e ∈ H1 ++ S1, impl.less e.1 first = false := by
    intro e he; rcases List.mem_append.1 he with he | he
    · exact (p1.sp.hit e he).1
    · exact hw.asymm (p1.sp.stop e he)
  have aG2 : ∀ e ∈ G2 ++ H2, impl.less last e.1 = false := by
    intro e he; rcases List.mem_append.1 he with he | he
    · exact hw.asymm (p2.sp.go e he)
    · exact (p2.sp.hit e he).2
  have aS2 : ∀ e ∈ S2, impl.less last e.1 = true := p2.sp.stop
  have hi : iG1 ++ (iH1 ++ iS1) = (iG2 ++ iH2) ++ iS2 := by rw [← p1.ids_eq, p2.ids_eq]; simp
  have lenk : ∀ {a : List Nat} {b : List (K × V)}, a.map sl.kv = b.map some → a.length = b.length := by
    intro a b hab; have := congrArg List.length hab; simpa using this
  rw [List.append_eq_append_iff] at hi
  rcases hi with ⟨iX, e1, e2⟩ | ⟨iY, e1, e2⟩
  · -- iG2 ++ iH2 = iG1 ++ iX, iH1 ++ iS1 = iX ++ iS2
    have hm : G1 ++ (H1 ++ S1) = (G2 ++ H2) ++ S2 := by rw [← p1.sp.eq, p2.sp.eq]; simp
    have hlen : G1.length ≤ (G2 ++ H2).length := by
      have := congrArg List.length e1
      simp only [List.length_append] at this ⊢
      rw [lenk p1.kG, lenk p2.kG, lenk p2.kH] at this; omega
    rw [List.append_eq_append_iff] at hm
    have : ∃ X, G2 ++ H2 = G1 ++ X ∧ H1 ++ S1 = X ++ S2 := by
      rcases hm with h | ⟨c, f1, f2⟩
      · exact h
      · have : c = [] := by
          have := congrArg List.length f1; simp only [List.length_append] at this hlen
          exact List.length_eq_zero_iff.1 (by omega)
        subst this
        exact ⟨[], by simpa using f1.symm, by simpa using f2.symm⟩
    obtain ⟨X, f1, f2⟩ := this
    have hmX : m = G1 ++ (X ++ S2) := by rw [p1.sp.eq, f2]
    have hkX : iX.map sl.kv = X.map some := by
      have := p1.kHS
      rw [e2, f2, List.map_append, List.map_append] at this
      exact (List.append_inj' this (by have := lenk p2.kS; simpa using this)).1
    rw [if_neg, e2]
    · have hc := h.collect (C := iS2) iX iG1 X (sl.nodes.length + 1) (by rw [p1.ids_eq, e2]) hkX (by
        have := h.count; rw [p1.ids_eq, e2] at this; simp at this; omega)
      simp only [SL.observeIter]
      rw [hc]; congr 1
      rw [hmX, List.filter_append, List.filter_append]
      rw [List.filter_eq_nil_iff.2 (fun e he => by simp [aG1 e he]), List.filter_eq_self.2 (fun e he => by
        rw [aR1 e (by rw [f2]; simp [he]), aG2 e (by rw [f1]; simp [he])]; rfl),
        List.filter_eq_nil_iff.2 (fun e he => by simp [aS2 e he])]
      simp
    · rw [hmX]
      simp only [List.any_eq_true, Bool.and_eq_true, not_exists, not_and, List.mem_append]
      rintro e (he | he | he) h1 h2
      · have := aG2 e (by rw [f1]; simp [he]); simp [this] at h1
      · have := aR1 e (by rw [f2]; simp [he]); simp [this] at h2
      · have := aR1 e (by rw [f2]; simp [he]); simp [this] at h2
  · -- iG1 = (iG2 ++ iH2) ++ iY, iS2 = iY ++ (iH1 ++ iS1)
    have hm : G1 ++ (H1 ++ S1) = (G2 ++ H2) ++ S2 := by rw [← p1.sp.eq, p2.sp.eq]; simp
    have hkY := p2.kS
    rw [e2, List.map_append] at hkY
    have hkY' := hkY.symm
    rw [List.map_eq_append_iff] at hkY'
    obtain ⟨Y, R, rfl, g1, g2⟩ := hkY'
    have hR : R = H1 ++ S1 := by
      have h3 := p1.kHS
      rw [← g2] at h3
      exact (List.map_inj_right (fun a b hab => by injection hab)).1 h3
    subst hR
    have hG1 : G1 = (G2 ++ H2) ++ Y := by
      rw [← List.append_assoc (G2 ++ H2)] at hm
      exact (List.append_inj' hm rfl).1
    have hmY : m = (G2 ++ H2) ++ (Y ++ (H1 ++ S1)) := by rw [p2.sp.eq]; simp
    cases iY with
    | nil =>
      have : Y = [] := by simpa using g1
      subst this
      rw [if_neg]
      · simp only [SL.observeIter]
        rw [e2, List.nil_append]
        have hc := h.collect (C := iH1 ++ iS1) [] iG1 [] (sl.nodes.length + 1) (by rw [p1.ids_eq]; rfl) rfl (by simp)
        rw [List.nil_append] at hc
        rw [hc]; congr 1
        symm; apply List.filter_eq_nil_iff.2
        intro e he; rw [hmY] at he
        rcases List.mem_append.1 he with he | he
        · simp [aG1 e (by rw [hG1]; simp; simpa using he)]
        · simp [aS2 e he]
      · simp only [List.any_eq_true, Bool.and_eq_true, not_exists, not_and]
        intro e he h1 h2
        rw [hmY] at he
        rcases List.mem_append.1 he with he | he
        · rw [aG2 e he] at h1; cases h1
        · rw [aR1 e (by simpa using he)] at h2; cases h2
    | cons y iY =>
      rw [if_pos]
      · simp only [SL.observeIter]
        rw [e2, List.cons_append, List.head?_cons]
        have hnd := h.linked.nodup
        rw [p2.ids_eq, e2] at hnd
        apply h.collect_panic (iH1 ++ iS1) iG1 _ p1.ids_eq
        · intro hy
          have := (List.nodup_append.1 (List.nodup_append.1 hnd).2.1).2.1
          simp only [List.cons_append, List.nodup_cons] at this
          exact this.1 (by simp only [List.mem_append] at hy ⊢; exact .inr hy)
        · have := h.count; rw [p1.ids_eq] at this; simp at this ⊢; omega
      · cases Y with
        | nil => simp at g1
        | cons e Y =>
          rw [hmY]
          simp only [List.any_eq_true, Bool.and_eq_true]
          exact ⟨e, by simp, aS2 e (by simp), aG1 e (by rw [hG1]; simp)⟩

theorem SL.run_append (h1 : List (Nat × SMOp K V)) : ∀ (h2 : List (Nat × SMOp K V)) (s s1 s2 : SL K V) (o1 o2 : List (SMObs K V)),
    SL.run impl s h1 = .ret (s1, o1) → SL.run impl s1 h2 = .ret (s2, o2) → SL.run impl s (h1 ++ h2) = .ret (s2, o1 ++ o2) := by
  induction h1 with
  | nil =>
    intro h2 s s1 s2 o1 o2 e1 e2
    simp only [SL.run] at e1; injection e1 with e1; injection e1 with e3 e4; subst e3 e4; exact e2
  | cons x h1 ih =>
    intro h2 s s1 s2 o1 o2 e1 e2
    obtain ⟨rnd, op⟩ := x
    simp only [SL.run, List.cons_append] at e1 ⊢
    cases hx : s.exec impl rnd op with
    | ret r =>
      rw [hx] at e1; simp only [Outcome.ret_bind] at e1 ⊢
      cases hy : SL.run impl r.1 h1 with
      | ret r2 =>
        rw [hy] at e1; simp only [Outcome.ret_bind, Outcome.pure_eq] at e1
        injection e1 with e1; injection e1 with e3 e4; subst e3 e4
        rw [ih h2 r.1 r2.1 s2 r2.2 o2 (by rw [hy]) e2]; rfl
      | panic => rw [hy] at e1; cases e1
      | diverge => rw [hy] at e1; cases e1
    | panic => rw [hx] at e1; cases e1
    | diverge => rw [hx] at e1; cases e1

/-! ## The specification is a finite map -/

variable {less : K → K → Bool}

theorem SMap.after_sorted (hw : StrictWeak less) (h : List (Nat × SMOp K V)) : SMap.Sorted less (SMap.after less h) := by
  have : ∀ (ops : List (SMOp K V)) (m : List (K × V)), SMap.Sorted less m → SMap.Sorted less (SMap.run less m ops).2 := by
    intro ops
    induction ops with
    | nil => intro m h; exact h
    | cons o ops ih => intro m h; exact ih _ (SMap.sorted_step hw h o)
  exact this _ _ List.Pairwise.nil

/-- `find` of the specification is membership up to equivalence of keys. -/
theorem SMap.find_eq_some (hw : StrictWeak less) (hs : SMap.Sorted less m) {key : K} {v : V} :
    SMap.find less key m = some v ↔ ∃ k, (k, v) ∈ m ∧ less k key = false ∧ less key k = false := by
  obtain ⟨G, H, S, sp⟩ := SSplit.exists hw key m hs
  rw [SMap.find_split sp]
  rcases sp.cases with rfl | ⟨e, rfl⟩
  · simp only [List.head?_nil, Option.map_none, reduceCtorEq, false_iff, not_exists, not_and]
    intro k hk h1 h2
    rw [sp.eq] at hk; simp at hk
    rcases hk with hk | hk
    · have := sp.go _ hk; simp_all
    · have := sp.stop _ hk; simp_all
  · simp only [List.head?_cons, Option.map_some, Option.some.injEq]
    constructor
    · rintro rfl; exact ⟨e.1, by rw [sp.eq]; simp, sp.hit e (by simp)⟩
    · rintro ⟨k, hk, h1, h2⟩
      rw [sp.eq] at hk; simp at hk
      rcases hk with hk | hk | hk
      · have := sp.go _ hk; simp_all
      · rw [← hk]
      · have := sp.stop _ hk; simp_all

theorem SMap.find_insert (hw : StrictWeak less) (hs : SMap.Sorted less m) (k k' : K) (v : V) :
    SMap.find less k' (SMap.insert less k v m) = if less k k' || less k' k then SMap.find less k' m else some v := by
  have hs' := SMap.sorted_insert hw hs k v
  obtain ⟨G, H, S, sp⟩ := SSplit.exists hw k m hs
  have hmem : ∃ H', SMap.insert less k v m = G ++ (H' ++ S) ∧ m = G ++ (H ++ S) ∧
      ((H = [] ∧ H' = [(k, v)]) ∨ ∃ e, H = [e] ∧ H' = [(e.1, v)] ∧ less e.1 k = false ∧ less k e.1 = false) := by
    rcases sp.cases with rfl | ⟨e, rfl⟩
    · exact ⟨[(k, v)], by rw [SMap.insert_miss hw sp]; rfl, sp.eq, .inl ⟨rfl, rfl⟩⟩
    · exact ⟨[(e.1, v)], by rw [SMap.insert_hit hw sp]; rfl, sp.eq, .inr ⟨e, rfl, rfl, sp.hit e (by simp)⟩⟩
  obtain ⟨H', e1, e2, e3⟩ := hmem
  cases hc : (less k k' || less k' k) with
  | false =>
    simp only [Bool.or_eq_false_iff] at hc
    simp only [Bool.false_eq_true, if_false]
    rw [SMap.find_eq_some hw hs', e1]
    rcases e3 with ⟨_, rfl⟩ | ⟨e, _, rfl, h1, h2⟩
    · exact ⟨k, by simp, hc.1, hc.2⟩
    · exact ⟨e.1, by simp, hw.negTrans h1 hc.1, hw.negTrans hc.2 h2⟩
  | true =>
    simp only [if_true]
    have key : ∀ x, SMap.find less k' (SMap.insert less k v m) = some x ↔ SMap.find less k' m = some x := by
      intro x
      rw [SMap.find_eq_some hw hs', SMap.find_eq_some hw hs, e1, e2]
      have hbad : ∀ q : K, less q k = false → less k q = false → less q k' = false → less k' q = false → False := by
        intro q h1 h2 h3 h4
        have a := hw.negTrans h2 h3
        have b := hw.negTrans h4 h1
        simp [a, b] at hc
      constructor
      · rintro ⟨q, hq, h3, h4⟩
        simp only [List.mem_append] at hq
        rcases hq with hq | hq | hq
        · exact ⟨q, by simp [hq], h3, h4⟩
        · rcases e3 with ⟨_, rfl⟩ | ⟨e, _, rfl, h1, h2⟩
          · simp at hq; obtain ⟨rfl, rfl⟩ := hq
            exact (hbad q (hw.irrefl q) (hw.irrefl q) h3 h4).elim
          · simp at hq; obtain ⟨rfl, rfl⟩ := hq
            exact (hbad _ h1 h2 h3 h4).elim
        · exact ⟨q, by simp [hq], h3, h4⟩
      · rintro ⟨q, hq, h3, h4⟩
        simp only [List.mem_append] at hq
        rcases hq with hq | hq | hq
        · exact ⟨q, by simp [hq], h3, h4⟩
        · rcases e3 with ⟨rfl, _⟩ | ⟨e, rfl, _, h1, h2⟩
          · simp at hq
          · simp at hq; subst hq
            exact (hbad _ h1 h2 h3 h4).elim
        · exact ⟨q, by simp [hq], h3, h4⟩
    cases hx : SMap.find less k' m with
    | some x => exact (key x).2 hx
    | none =>
      cases hy : SMap.find less k' (SMap.insert less k v m) with
      | none => rfl
      | some y => rw [(key y).1 hy] at hx; cases hx

theorem SMap.find_erase (hw : StrictWeak less) (hs : SMap.Sorted less m) (k k' : K) :
    SMap.find less k' (SMap.erase less k m) = if less k k' || less k' k then SMap.find less k' m else none := by
  have hs' := SMap.sorted_erase hs k
  have key : ∀ x, SMap.find less k' (SMap.erase less k m) = some x ↔
      (if less k k' || less k' k then SMap.find less k' m else none) = some x := by
    intro x
    rw [SMap.find_eq_some hw hs']
    simp only [SMap.erase, List.mem_filter]
    cases hc : (less k k' || less k' k) with
    | true =>
      simp only [if_true]
      rw [SMap.find_eq_some hw hs]
      constructor
      · rintro ⟨q, ⟨hq, _⟩, h⟩; exact ⟨q, hq, h⟩
      · rintro ⟨q, hq, h1, h2⟩
        refine ⟨q, ⟨hq, ?_⟩, h1, h2⟩
        rcases Bool.eq_false_or_eq_true (less k q || less q k) with h | h
        · exact h
        · simp only [Bool.or_eq_false_iff] at h
          have a := hw.negTrans h.1 h1
          have b := hw.negTrans h2 h.2
          simp [a, b] at hc
    | false =>
      simp only [Bool.or_eq_false_iff] at hc
      simp only [Bool.false_eq_true, if_false, reduceCtorEq, iff_false, not_exists, not_and, and_imp]
      intro q _ hq h1 h2
      have a := hw.negTrans hc.1 h2
      have b := hw.negTrans h1 hc.2
      simp [a, b] at hq
  cases hx : (if less k k' || less k' k then SMap.find less k' m else none) with
  | some x => exact (key x).2 hx
  | none =>
    cases hy : SMap.find less k' (SMap.erase less k m) with
    | none => rfl
    | some y => rw [(key y).1 hy] at hx; cases hx

theorem SMap.length_insert (hw : StrictWeak less) (hs : SMap.Sorted less m) (k : K) (v : V) :
    (SMap.insert less k v m).length = if (SMap.find less k m).isSome then m.length else m.length + 1 := by
  obtain ⟨G, H, S, sp⟩ := SSplit.exists hw k m hs
  have hm := sp.eq
  rw [SMap.find_split sp]
  rcases sp.cases with rfl | ⟨e, rfl⟩
  · rw [SMap.insert_miss hw sp, hm]; simp; omega
  · rw [SMap.insert_hit hw sp, hm]; simp

theorem SMap.length_erase (hw : StrictWeak less) (hs : SMap.Sorted less m) (k : K) :
    (SMap.erase less k m).length = if (SMap.find less k m).isSome then m.length - 1 else m.length := by
  obtain ⟨G, H, S, sp⟩ := SSplit.exists hw k m hs
  have hm := sp.eq
  rw [SMap.find_split sp, SMap.erase_split sp]
  rcases sp.cases with rfl | ⟨e, rfl⟩
  · rw [hm]; simp
  · rw [hm]; simp

/-! ## Building from a list of entries -/

theorem SLInv.insertAll (hl : impl.Lawful) (es : List (Nat × K × V)) : ∀ {sl : SL K V} {ids : List Nat} {m : List (K × V)},
    SLInv impl.less sl ids m →
    ∃ sl' ids', SL.insertAll impl es sl = .ret sl' ∧
      SLInv impl.less sl' ids' (es.foldl (fun m e => SMap.insert impl.less e.2.1 e.2.2 m) m) := by
  induction es with
  | nil => intro sl ids m h; exact ⟨sl, ids, rfl, h⟩
  | cons x es ih =>
    intro sl ids m h
    obtain ⟨rnd, k, v⟩ := x
    obtain ⟨s1, i1, a1, a2⟩ := h.exec hl rnd (.insert k v)
    obtain ⟨s2, i2, b1, b2⟩ := ih a2
    refine ⟨s2, i2, ?_, b2⟩
    have : sl.insert impl rnd k v = .ret s1 := by
      simp only [SL.exec] at a1
      cases hx : sl.insert impl rnd k v with
      | ret s => rw [hx] at a1; simp at a1; rw [a1.1]
      | panic => rw [hx] at a1; simp at a1
      | diverge => rw [hx] at a1; simp at a1
    simp [SL.insertAll, this, b1]

/-- Inserting entries with pairwise inequivalent new keys: a permutation of old and new entries. -/
theorem SMap.foldl_insert_perm (hw : StrictWeak less) (es : List (K × V)) : ∀ (m : List (K × V)), SMap.Sorted less m →
    (m ++ es).Pairwise (fun a b => (less a.1 b.1 || less b.1 a.1) = true) →
    (es.foldl (fun m e => SMap.insert less e.1 e.2 m) m).Perm (m ++ es) ∧
      SMap.Sorted less (es.foldl (fun m e => SMap.insert less e.1 e.2 m) m) := by
  induction es with
  | nil => intro m hs _; exact ⟨by simp, hs⟩
  | cons e es ih =>
    intro m hs hd
    have hp : (SMap.insert less e.1 e.2 m).Perm (m ++ [e]) := by
      obtain ⟨G, H, S, sp⟩ := SSplit.exists hw e.1 m hs
      rcases sp.cases with rfl | ⟨x, rfl⟩
      · rw [SMap.insert_miss hw sp, sp.eq]
        simp only [List.nil_append, List.append_assoc]
        exact List.Perm.append_left _ (List.perm_append_singleton _ _).symm
      · exfalso
        have hx := sp.hit x (by simp)
        have := (List.pairwise_append.1 hd).2.2 x (by rw [sp.eq]; simp) e (by simp)
        simp [hx] at this
    have hd' : (SMap.insert less e.1 e.2 m ++ es).Pairwise (fun a b => (less a.1 b.1 || less b.1 a.1) = true) := by
      have hp2 : (SMap.insert less e.1 e.2 m ++ es).Perm (m ++ e :: es) := by
        refine (List.Perm.append_right es hp).trans ?_
        simp
      exact (hp2.pairwise_iff (fun {a b} h => by rw [Bool.or_comm]; exact h)).2 hd
    obtain ⟨a1, a2⟩ := ih _ (SMap.sorted_insert hw hs e.1 e.2) hd'
    refine ⟨a1.trans ((List.Perm.append_right es hp).trans (by simp)), a2⟩

/-- Two sorted lists with the same entries are equal. -/
theorem SMap.sorted_perm_eq (hw : StrictWeak less) {a b : List (K × V)} (ha : SMap.Sorted less a) (hb : SMap.Sorted less b)
    (hp : a.Perm b) : a = b := by
  unfold SMap.Sorted at ha hb
  refine List.Perm.eq_of_pairwise ?_ ha hb hp
  intro x y _ _ h1 h2
  have := hw.asymm h1
  simp [h2] at this

end Stl4go
