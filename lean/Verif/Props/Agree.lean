import Verif.Proofs.Agree
/-!
# C137: the parts of the library agree with each other

The statements mention functions of the library only. `sort` and `stable` are any algorithms that keep the promises of Go's package `sort`
(`SortContract`, `StableContract`), `a` is a slice in memory `m`, `a.read m` its contents.
-/
namespace Stl4go
variable {T : Type}

section
variable [GoOrd T] [LawfulGoOrd T]

/-- C137: after `Sort`, `BinarySearch` finds what `Find` found before, `LowerBound` is how many were less, and the difference of the bounds what `Count` gave. -/
theorem C137_search {sort : Nat → SortProg} (hs : SortContract sort) (a : Sl) (m : Mem T) :
    ∃ m', sortAsc sort a m = .ok () m' ∧ ∀ x, (∃ i, binarySearch (a.read m') x = .ret (i, (find (a.read m) x).2)) ∧
      ∃ l u, lowerBound (a.read m') x = .ret l ∧ upperBound (a.read m') x = .ret u ∧ l = countIf (a.read m) (fun y => lessF y x) ∧
        u = l + count (a.read m) x := by
  obtain ⟨m', e, hp, hsorted, _⟩ := C62_sort hs a m
  refine ⟨m', e, fun x => ⟨?_, ?_⟩⟩
  · rw [find_flag, ← count_perm hp x]
    rcases C03_binarySearch (a.read m') hsorted x with ⟨i, hi, h1, h2, _⟩ | ⟨h1, h2⟩
    · exact ⟨i, by rw [h1, decide_eq_true (count_pos (List.getElem_mem hi) h2)]⟩
    · refine ⟨-1, ?_⟩
      rw [h1, (count_zero_iff _ _).2]
      · simp
      · intro y hy
        obtain ⟨j, hj, rfl⟩ := List.getElem_of_mem hy
        exact h2 j hj
  · obtain ⟨l, u, h1, h2, h3, _, h5, _⟩ := C06_equal_range (a.read m') hsorted x
    refine ⟨l, u, h1, h2, ?_, by rw [← count_perm hp x]; omega⟩
    obtain ⟨l', h1', hle, hlo, hhi⟩ := C01_lowerBound_partition (a.read m') hsorted x
    rw [h1] at h1'
    cases h1'
    rw [C70_countIf, ← (hp.filter (fun y => lessF y x)).length_eq, ← List.take_append_drop l (a.read m'), List.filter_append,
      List.filter_eq_self.mpr, List.filter_eq_nil_iff.mpr]
    · simp only [List.append_nil, List.length_take]; omega
    · intro y hy
      obtain ⟨j, hj, rfl⟩ := List.getElem_of_mem hy
      simp only [List.getElem_drop, lessF]
      rw [hhi _ _ (by omega)]
      simp
    · intro y hy
      obtain ⟨j, hj, rfl⟩ := List.getElem_of_mem hy
      simp only [List.getElem_take, lessF]
      exact hlo _ _ (by simp at hj; omega)

/-- C137: `Sort`, `StableSort`, `Reverse` after `DescSort` and popping a priority queue of the elements give equal sequences. -/
theorem C137_sorts {sort stable : Nat → SortProg} (hs : SortContract sort) (hst : StableContract stable) (a : Sl) (m : Mem T) :
    ∃ m1 m2 m3 xs, sortAsc sort a m = .ok () m1 ∧ stableSort stable a m = .ok () m2 ∧ (do descSort sort a; reverse a : GoM (Mem T) Unit) m = .ok () m3 ∧
      (newPriorityQueueOf (a.read m) >>= PQ.drain (a.len + 1)) = .ret xs ∧
      equal (a.read m1) (a.read m2) = .ret true ∧ equal (a.read m1) (a.read m3) = .ret true ∧ equal (a.read m1) xs = .ret true := by
  obtain ⟨m1, e1, p1, s1, _⟩ := C62_sort hs a m
  obtain ⟨m2, e2, r2, _⟩ := C63_stableSort hst a m
  obtain ⟨s2, _, p2, _⟩ := C63_unique GoOrd.lt LawfulGoOrd.weak (a.read m)
  obtain ⟨m3, e3, p3, s3, _⟩ := C62_descSort hs a m
  obtain ⟨m4, e4, _, r4⟩ := C57_reverse a m3
  obtain ⟨xs, _, ex, px, sx⟩ := C16_drain_sorts (a.read m)
  have hrev : a.read m4 = (a.read m3).reverse := by
    apply List.ext_getElem?
    intro i
    rcases Nat.lt_or_ge i a.len with hi | hi
    · rw [r4 i hi, List.getElem?_reverse (by simpa using hi), Sl.read_length]
    · rw [List.getElem?_eq_none (by simpa using hi), List.getElem?_eq_none (by simpa using hi)]
  refine ⟨m1, m2, m4, xs, e1, e2, by simp only [GoM.bind_def, e3, e4], by simpa using ex, ?_, ?_, ?_⟩ <;> rw [equal_iff]
  · rw [r2]; exact eqSeq_of_perm s1 s2 (p1.trans p2.symm)
  · rw [hrev]
    refine eqSeq_of_perm s1 ?_ (p1.trans (p3.symm.trans (List.reverse_perm _).symm))
    rw [sortedBy_pairwise] at s3 ⊢
    rw [List.pairwise_reverse]
    exact s3
  · exact eqSeq_of_perm s1 sx (p1.trans px.symm)

/-- C137: two slices are `Equal` after `Sort` exactly if `Count` is the same for every value. -/
theorem C137_bags {sort : Nat → SortProg} (hs : SortContract sort) (a b : Sl) (m : Mem T) :
    ∃ m1 m2, sortAsc sort a m = .ok () m1 ∧ sortAsc sort b m = .ok () m2 ∧
      (equal (a.read m1) (b.read m2) = .ret true ↔ ∀ x, count (a.read m) x = count (b.read m) x) := by
  obtain ⟨m1, e1, p1, s1, _⟩ := C62_sort hs a m
  obtain ⟨m2, e2, p2, s2, _⟩ := C62_sort hs b m
  refine ⟨m1, m2, e1, e2, ?_⟩
  rw [equal_iff]
  constructor
  · intro h x
    rw [← count_perm p1, ← count_perm p2]
    exact counts_of_eqSeq h x
  · intro h
    exact eqSeq_of_counts _ _ ((sortedBy_pairwise _).1 s1) ((sortedBy_pairwise _).1 s2) (fun v => by rw [count_perm p1, count_perm p2, h v])

/-- C137: `Unique` after `Sort`, the `Keys` of a `SkipListSet` of the elements and a `BuiltinSet` of them: the first two are equal, and the
third has the same `Len`. -/
theorem C137_distinct {sort : Nat → SortProg} (hs : SortContract sort) (a : Sl) (m : Mem T) (ha : a.WF m) (elements : List (Nat × T))
    (hel : elements.map (·.2) = a.read m) (rt : MapRt T) (w : MWorld T) :
    ∃ r m' s L i w', (do sortAsc sort a; unique a : GoM (Mem T) Sl) m = .ok r m' ∧ newSkipListSetOf elements = .ret s ∧ SLSet.keys s = .ret L ∧
      bsSetOf rt (a.read m) w = .ok i w' ∧ equal (r.read m') L = .ret true ∧ SLSet.length s = r.len ∧ bsLen i w' = .ok (r.len : Int) w' := by
  obtain ⟨m1, e1, p1, s1, o1⟩ := C62_sort hs a m
  obtain ⟨r, m2, e2, _, _, r2, _⟩ := C55_unique PartialEq.of_lawful a m1 (by simpa [Sl.WF, o1.1] using ha)
  have s1' := (sortedBy_pairwise _).1 s1
  obtain ⟨d1, d2, d3⟩ := C55_sorted (a.read m1) s1'
  have hl : (SLImpl.ordered (inferInstance : GoOrd T)).Lawful := inferInstanceAs (LawfulGoOrd T)
  obtain ⟨s, ids, l, a1, a2, a3, _⟩ := SLInv.insertN hl elements (SLInv.new (V := Unit) (SLImpl.ordered (inferInstance : GoOrd T)).less)
  have hL : l.map (·.1) = (SSet.addN GoOrd.lt (a.read m) []).1 := by rw [a3, hel]; rfl
  have hsorted : (l.map (·.1)).Pairwise (fun x y => GoOrd.lt x y = true) := a2.keys_sorted
  have hmemC : ∀ v, (collapse (a.read m1)).any (fun x => GoEq.eq v x) = (a.read m).any (fun x => GoEq.eq v x) := by
    intro v
    rw [Bool.eq_iff_iff, List.any_eq_true, List.any_eq_true]
    constructor
    · rintro ⟨x, hx, h⟩
      exact ⟨x, p1.mem_iff.1 (d3.subset hx), h⟩
    · rintro ⟨x, hx, h⟩
      obtain ⟨y, hy, hxy⟩ := d2 x (p1.mem_iff.2 hx)
      exact ⟨y, hy, LawfulGoEq.trans _ _ _ h hxy⟩
  have heq : EqSeq (collapse (a.read m1)) (l.map (·.1)) := by
    refine eqSeq_of_counts _ _ (s1'.sublist d3) (hsorted.imp fun h => LawfulGoOrd.weak.asymm h) fun v => ?_
    rw [count_distinct (d1.imp fun h => h.1), count_distinct (hsorted.imp fun {x y} h => ?_), hmemC v, hL, SSet.mem_addN]
    · simp
    · rcases Bool.eq_false_or_eq_true (GoEq.eq x y) with h' | h'
      · rw [((LawfulGoOrd.eq_iff x y).1 h').1] at h; cases h
      · exact h'
  have hlenL : (l.map (·.1)).length = r.len := by
    have : ∀ {x y : List T}, EqSeq x y → y.length = x.length := by
      intro x y h; induction h with
      | nil => rfl
      | cons _ _ ih => simp [ih]
    rw [this heq, ← r2, Sl.read_length]
  have b1 : Lists (fun v => (a.read m).any (fun x => GoEq.eq v x)) ((a.read m).foldl (assignKey rt.replace) []) := Lists.fill _ _ (fun _ => rfl)
  have b2 : Lists (fun v => (a.read m).any (fun x => GoEq.eq v x)) (collapse (a.read m1)) :=
    (lists_iff _ _).2 ⟨d1.imp fun h => h.1, fun v => (hmemC v).symm⟩
  refine ⟨r, m2, s, _, _, _, by simp only [GoM.bind_def, e1, e2], a1, a2.keys, bsSetOf_eq rt w (a.read m), ?_, ?_, ?_⟩
  · rw [equal_iff, r2]; exact heq
  · rw [a2.length_set, hlenL]
  · have := b1.length_eq b2
    simp only [bsLen, mapLen, MWorld.keysOf, MWorld.put_maps]
    rw [this, ← r2, Sl.read_length]

/-- C137: after `Sort` the first element is equal to what `MinN` gave and to `Top` of a priority queue, the last to what `MaxN` gave. -/
theorem C137_extremes {sort : Nat → SortProg} (hs : SortContract sort) (a : Sl) (m : Mem T) (h : 0 < a.len) :
    ∃ m' x y z lo hi, sortAsc sort a m = .ok () m' ∧ idx (a.read m') 0 = .ret x ∧ idx (a.read m') (a.len - 1) = .ret y ∧
      (newPriorityQueueOf (a.read m) >>= PQ.top) = .ret z ∧ minN (a.read m) = .ret lo ∧ maxN (a.read m) = .ret hi ∧
      GoEq.eq x lo = true ∧ GoEq.eq z lo = true ∧ GoEq.eq y hi = true ∧
      ∃ lo' hi', minMaxN (a.read m) = .ret (lo', hi') ∧ GoEq.eq lo' lo = true ∧ GoEq.eq hi' hi = true := by
  obtain ⟨m', e, p, s, _⟩ := C62_sort hs a m
  have hlen : (a.read m').length = a.len := Sl.read_length _ _
  have hne : a.read m ≠ [] := by
    intro h0
    have := congrArg List.length h0
    simp at this
    omega
  obtain ⟨lo, h1, h2, h3⟩ := C68_minN (a.read m) hne
  obtain ⟨hi, g1, g2, g3⟩ := C68_maxN (a.read m) hne
  obtain ⟨lo', hi', k1, k2, k3, k4⟩ := C68_minMaxN (a.read m) hne
  obtain ⟨hp, q1, q2, q3⟩ := C07_makeMinHeap (a.read m)
  have hpl : 0 < hp.length := by rw [q2.length_eq]; simpa using h
  have hroot : ∀ v ∈ hp, GoOrd.lt v hp[0] = false := by
    cases hp with
    | nil => simp at hpl
    | cons v hp =>
      obtain ⟨b, c1, c2⟩ := C08_isMinHeap_iff (v :: hp)
      exact C08_isMinHeap_root v hp (by rw [c1, c2.2 q3])
  have lows : ∀ {u v : T}, u ∈ a.read m → v ∈ a.read m → (∀ t ∈ a.read m, GoOrd.lt t u = false) → (∀ t ∈ a.read m, GoOrd.lt t v = false) → GoEq.eq u v = true :=
    fun hu hv h h' => (LawfulGoOrd.eq_iff _ _).2 ⟨h' _ hu, h _ hv⟩
  have highs : ∀ {u v : T}, u ∈ a.read m → v ∈ a.read m → (∀ t ∈ a.read m, GoOrd.lt u t = false) → (∀ t ∈ a.read m, GoOrd.lt v t = false) → GoEq.eq u v = true :=
    fun hu hv h h' => (LawfulGoOrd.eq_iff _ _).2 ⟨h _ hv, h' _ hu⟩
  have first : ∀ t ∈ a.read m, GoOrd.lt t (a.read m')[0] = false := by
    intro t ht
    obtain ⟨j, hj, rfl⟩ := List.getElem_of_mem (p.mem_iff.2 ht)
    rcases Nat.eq_zero_or_pos j with rfl | h0
    · exact LawfulGoOrd.weak.irrefl _
    · exact s 0 j _ _ h0
  have last : ∀ t ∈ a.read m, GoOrd.lt (a.read m')[a.len - 1] t = false := by
    intro t ht
    obtain ⟨j, hj, rfl⟩ := List.getElem_of_mem (p.mem_iff.2 ht)
    rcases Nat.lt_or_ge j (a.len - 1) with h0 | h0
    · exact s j (a.len - 1) _ _ h0
    · have : j = a.len - 1 := by omega
      subst this
      exact LawfulGoOrd.weak.irrefl _
  refine ⟨m', _, _, hp[0], lo, hi, e, idx_of_lt (by omega), idx_of_lt (by omega), ?_, h1, g1,
    lows (p.mem_iff.1 (List.getElem_mem _)) h2 first h3, lows (q2.mem_iff.1 (List.getElem_mem _)) h2 (fun t ht => hroot t (q2.mem_iff.2 ht)) h3,
    highs (p.mem_iff.1 (List.getElem_mem _)) g2 last g3, lo', hi', k1, lows k2 h2 (fun t ht => (k4 t ht).1) h3, highs k3 g2 (fun t ht => (k4 t ht).2) g3⟩
  simp only [newPriorityQueueOf, newPriorityQueueOn, q1, Outcome.ret_bind, Outcome.pure_eq, PQ.top]
  exact idx_of_lt hpl

/-- C137: a sorted slice is a heap, passes `IsSorted`, and `Sort` of a slice that passes `IsSorted` leaves a slice `Equal` to what it was. -/
theorem C137_sorted {sort : Nat → SortProg} (hs : SortContract sort) (a : Sl) (m : Mem T) :
    ∃ m', sortAsc sort a m = .ok () m' ∧ isSorted (a.read m') = .ret true ∧ isMinHeap (a.read m') = .ret true ∧
      (isSorted (a.read m) = .ret true → equal (a.read m) (a.read m') = .ret true) := by
  obtain ⟨m1, e1, p1, s1, _⟩ := C62_sort hs a m
  obtain ⟨b, hb, hb'⟩ := C64_isSorted (a.read m1)
  obtain ⟨c, hc, hc'⟩ := C08_isMinHeap_iff (a.read m1)
  refine ⟨m1, e1, by rw [hb, hb'.2 s1], ?_, ?_⟩
  · rw [hc, hc'.2 fun i hi h0 => s1 _ _ _ _ (by omega)]
  · intro h
    obtain ⟨d, hd, hd'⟩ := C64_isSorted (a.read m)
    rw [hd] at h
    simp only [Outcome.ret.injEq] at h
    rw [equal_iff]
    exact eqSeq_of_perm (hd'.1 h) s1 p1.symm

end

/-- C137: `RemoveCopy` leaves out as many elements as `Count` counts, and `Index` finds none of them any more. -/
theorem C137_remove [GoEq T] [GoZero T] (grow : Nat → Nat → Nat) (a : Sl) (x : T) (m : Mem T) (ha : a.WF m) :
    ∃ r m', removeCopy grow a x m = .ok r m' ∧ r.len + count (a.read m) x = a.len ∧ index (r.read m') x = -1 ∧ count (r.read m') x = 0 := by
  obtain ⟨r, m', e, _, hr⟩ := C56_removeCopy grow a x m ha
  have hlen : ∀ l : List T, (l.filter (fun v => !GoEq.eq v x)).length + (l.filter (fun v => GoEq.eq v x)).length = l.length := by
    intro l
    induction l with
    | nil => rfl
    | cons v l ih => cases h : GoEq.eq v x <;> simp [h] <;> omega
  refine ⟨r, m', e, ?_, ?_, ?_⟩
  · have := hlen (a.read m)
    rw [← hr, Sl.read_length, Sl.read_length] at this
    rw [C70_count]; exact this
  · rcases C69_index (r.read m') x with ⟨i, hi, _, h, _⟩ | ⟨h, _⟩
    · have hall : ∀ y ∈ r.read m', GoEq.eq y x = false := by rw [hr]; simp
      rw [hall _ (List.getElem_mem hi)] at h
      cases h
    · exact h
  · rw [C70_count, hr, List.filter_filter]
    simp

/-- C137: `AnyOf`, `AllOf`, `NoneOf`, `FindIf` and `CountIf` agree. -/
theorem C137_quantifiers (a : List T) (pred : T → Bool) :
    anyOf a pred = (findIf a pred).2 ∧ anyOf a pred = decide (0 < countIf a pred) ∧ noneOf a pred = !anyOf a pred ∧
      allOf a pred = noneOf a (fun x => !pred x) ∧ allOf a pred = decide (countIf a pred = a.length) := by
  have hany := C70_anyOf a pred
  have hpos : 0 < countIf a pred ↔ ∃ x ∈ a, pred x = true := by
    rw [C70_countIf, List.length_pos_iff_exists_mem]
    simp
  have hall := C70_allOf a pred
  have hnone := C70_noneOf a pred
  refine ⟨?_, ?_, ?_, ?_, ?_⟩
  · rcases C69_findIf a pred with ⟨i, hi, e, h, _⟩ | ⟨e, h⟩
    · rw [e, hany.2 ⟨_, List.getElem_mem hi, h⟩]
    · rw [e]
      refine Bool.eq_false_iff.mpr fun hc => ?_
      obtain ⟨x, hx, hp⟩ := hany.1 hc
      rw [h x hx] at hp
      cases hp
  · rw [Bool.eq_iff_iff, hany, decide_eq_true_iff, hpos]
  · rw [Bool.eq_iff_iff, hnone, Bool.not_eq_true', ← Bool.not_eq_true, hany]
    simp
  · rw [Bool.eq_iff_iff, hall, C70_noneOf]
    simp
  · rw [Bool.eq_iff_iff, hall, decide_eq_true_iff, C70_countIf, List.length_filter_eq_length_iff]

/-! ## Cases -/

section Cases

/-- 3, 1, 2, 3 in a slice between other elements. -/
def fourInts : Mem Int := memOf [9, 3, 1, 2, 3, 0]

example : (⟨1, 4, 5⟩ : Sl).WF fourInts := by simp [Sl.WF, fourInts, memOf]

/-- The distinct elements, by `Sort` and `Unique` and by a `SkipListSet`. -/
def distinctBoth : List Int × List Int :=
  (match (do sortAsc insertionProg ⟨1, 4, 5⟩; unique ⟨1, 4, 5⟩ : GoM (Mem Int) Sl) fourInts with
    | .ok r m => r.read m
    | _ => [],
   match newSkipListSetOf [(5, 3), (0, 1), (7, 2), (1, (3 : Int))] >>= SLSet.keys with
    | .ret l => l
    | _ => [])

example : distinctBoth = ([1, 2, 3], [1, 2, 3]) := by decide +kernel

/-- `BinarySearch` and the bounds of 3 after `Sort`. -/
def searchThree : Option (Outcome (Int × Bool) × Outcome Nat × Outcome Nat) :=
  match sortAsc insertionProg ⟨1, 4, 5⟩ fourInts with
  | .ok _ m => some (binarySearch (Sl.read m ⟨1, 4, 5⟩) 3, lowerBound (Sl.read m ⟨1, 4, 5⟩) 3, upperBound (Sl.read m ⟨1, 4, 5⟩) 3)
  | _ => none

example : searchThree = some (.ret (2, true), .ret 2, .ret 4) := by decide +kernel
example : find (Sl.read fourInts ⟨1, 4, 5⟩) 3 = (0, true) ∧ count (Sl.read fourInts ⟨1, 4, 5⟩) 3 = 2 := by decide +kernel

end Cases

end Stl4go
