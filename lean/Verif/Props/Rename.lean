import Verif.Proofs.Rename
import Verif.Props.Sort
import Verif.Props.Heap
import Verif.Props.BinarySearch
import Verif.Props.SkipList
/-!
# Property C178: only the values that occur matter

The functions look at elements only by comparing them, so the order has to be an order only on the values that occur. In particular the
theorems about ordered types hold for floats as long as there is no NaN among them.
-/
namespace Stl4go
variable {T U V : Type}

/-! ## Renaming -/

/-- C178, searching: let `f` turn elements into others that compare alike. The searches return the same on the images. -/
theorem C178_rename_search (f : T → U) (less : T → T → Bool) (less' : U → U → Bool) (hf : ∀ a b, less' (f a) (f b) = less a b) (a : List T) (v : T) :
    lowerBoundFunc (a.map f) (f v) less' = lowerBoundFunc a v less ∧ upperBoundFunc (a.map f) (f v) less' = upperBoundFunc a v less ∧
    binarySearchFunc (a.map f) (f v) less' = binarySearchFunc a v less :=
  ⟨lowerBoundFunc_map hf a v, upperBoundFunc_map hf a v, binarySearchFunc_map hf a v⟩

/-- C178, queues: a history gives the images of the observations. -/
theorem C178_rename_queue (f : T → U) (less : T → T → Bool) (less' : U → U → Bool) (hf : ∀ a b, less' (f a) (f b) = less a b) (ops : List (PQOp T)) :
    ((newPriorityQueueFunc less').execAll (ops.map (PQOp.map f))).1 = ((newPriorityQueueFunc less).execAll ops).1.map (PQObs.map f) :=
  (PQ.execAll_map f ops (newPriorityQueueFunc less) (newPriorityQueueFunc less') rfl hf).1

/-- C178, skip lists: let keys be compared by their images under `f`, with operators or with a compare function, which need not be
consistent. Then every history goes the way of the history on the images: it returns, panics or hangs alike, the observations are the
images of the observations, and the nodes are linked in the same way. -/
theorem C178_rename_skiplist (f : T → U) (impl : SLImpl U) (h : List (Nat × SMOp T V)) :
    SL.run impl newSkipList (h.map (fun e => (e.1, e.2.rekey f))) =
      (fun r => (r.1.rekey f, r.2.map (SMObs.rekey f))) <$> SL.run (impl.pull f) newSkipList h :=
  SL.run_rekey f impl h newSkipList

/-- Pairs as keys, compared by the first component. -/
example : (fun r => r.2) <$> SL.run (.func (fun a b : Int × Nat => a.1 - b.1)) newSkipList
      [(0, .insert (2, 7) 'a'), (0, .insert (1, 8) 'b'), (0, .insert (2, 9) 'c'), (0, .iterate)] =
    .ret [.unit, .unit, .unit, .entries [((1, 8), 'b'), ((2, 7), 'c')]] ∧
    (fun r => r.2) <$> SL.run (.func (fun a b : Int => a - b)) newSkipList
      [(0, .insert 2 'a'), (0, .insert 1 'b'), (0, .insert 2 'c'), (0, .iterate)] =
    .ret [.unit, .unit, .unit, .entries [(1, 'b'), (2, 'c')]] := by decide +kernel

/-! ## The order on the values that occur -/

variable {P : T → Prop} {less : T → T → Bool}

/-- C178: the searches are right if `less` is a strict weak order on the elements and the value. -/
theorem C178_search (hw : StrictWeakOn P less) (a : List T) (ha : ∀ x ∈ a, P x) (hs : SortedBy less a) (v : T) (hv : P v) :
    (∃ r, lowerBoundFunc a v less = .ret r ∧ r ≤ a.length ∧ (∀ i (hi : i < a.length), i < r → less a[i] v = true) ∧
      (∀ i (hi : i < a.length), r ≤ i → less a[i] v = false)) ∧
    (∃ r, upperBoundFunc a v less = .ret r ∧ r ≤ a.length ∧ (∀ i (hi : i < a.length), i < r → less v a[i] = false) ∧
      (∀ i (hi : i < a.length), r ≤ i → less v a[i] = true)) ∧
    ((∃ i, ∃ hi : i < a.length, binarySearchFunc a v less = .ret ((i : Int), true) ∧ Equiv less a[i] v ∧
        ∀ j (hj : j < a.length), j < i → ¬ Equiv less a[j] v) ∨
     (binarySearchFunc a v less = .ret (-1, false) ∧ ∀ j (hj : j < a.length), ¬ Equiv less a[j] v)) := by
  obtain ⟨l, rfl⟩ := lift_list a ha
  have hs' := (sortedBy_map Subtype.val less l).1 hs
  obtain ⟨e1, e2, e3⟩ := C178_rename_search Subtype.val (fun x y : { x // P x } => less x.1 y.1) less (fun _ _ => rfl) l ⟨v, hv⟩
  have e1 : lowerBoundFunc (l.map Subtype.val) v less = _ := e1
  have e2 : upperBoundFunc (l.map Subtype.val) v less = _ := e2
  have e3 : binarySearchFunc (l.map Subtype.val) v less = _ := e3
  rw [e1, e2, e3]
  refine ⟨?_, ?_, ?_⟩
  · obtain ⟨r, h1, h2, h3, h4⟩ := C01_lowerBoundFunc_partition _ hw.sub l hs' ⟨v, hv⟩
    refine ⟨r, h1, by simpa using h2, fun i hi hir => ?_, fun i hi hir => ?_⟩
    · rw [List.getElem_map]; exact h3 i (by simpa using hi) hir
    · rw [List.getElem_map]; exact h4 i (by simpa using hi) hir
  · obtain ⟨r, h1, h2, h3, h4⟩ := C02_upperBoundFunc_partition _ hw.sub l hs' ⟨v, hv⟩
    refine ⟨r, h1, by simpa using h2, fun i hi hir => ?_, fun i hi hir => ?_⟩
    · rw [List.getElem_map]; exact h3 i (by simpa using hi) hir
    · rw [List.getElem_map]; exact h4 i (by simpa using hi) hir
  · rcases C03_binarySearchFunc _ hw.sub l hs' ⟨v, hv⟩ with ⟨i, hi, h1, h2, h3⟩ | ⟨h1, h2⟩
    · refine .inl ⟨i, by simpa using hi, h1, ?_, fun j hj hji => ?_⟩
      · rw [List.getElem_map]; exact h2
      · rw [List.getElem_map]; exact h3 j (by simpa using hj) hji
    · refine .inr ⟨h1, fun j hj => ?_⟩
      rw [List.getElem_map]; exact h2 j (by simpa using hj)

/-- C178: `SortFunc` sorts, if `less` is a strict weak order on the elements of the slice. -/
theorem C178_sort (hw : StrictWeakOn P less) {sort : Nat → SortProg} (hs : SortContract sort) (a : Sl) (m : Mem T) (ha : ∀ x ∈ a.read m, P x) :
    Sorts less (sortFunc sort a less) a m := by
  obtain ⟨l, e⟩ := lift_list (a.read m) ha
  obtain ⟨out, h1, h2⟩ := hs _ _ hw.sub l
  have h1' : (sort (a.read m).length).onList less (a.read m) = some (out.map Subtype.val) := by
    rw [e, SortProg.onList_map (less := fun x y : { x // P x } => less x.1 y.1) (fun _ _ => rfl), List.length_map, h1]; rfl
  have hp := SortProg.onList_perm _ h1'
  have hl : (out.map Subtype.val).length = a.len := by simpa using hp.length_eq
  refine ⟨_, goSort_eq sort a m (fun a => funcSortable a less) rfl (fun _ _ => rfl) (fun _ _ => rfl) h1', ?_, ?_, onlyIn_write _ _ _ (by omega)⟩
  · rw [Sl.read_write_self _ _ _ hl]; exact hp
  · rw [Sl.read_write_self _ _ _ hl]; exact (sortedBy_map Subtype.val less out).2 h2

/-- C178: and `StableSortFunc` sorts stably. -/
theorem C178_stable (hw : StrictWeakOn P less) {stable : Nat → SortProg} (hs : StableContract stable) (a : Sl) (m : Mem T) (ha : ∀ x ∈ a.read m, P x) :
    ∃ m', stableSortFunc stable a less m = .ok () m' ∧ a.read m' = sortedStably less (a.read m) ∧ OnlyIn m m' a := by
  obtain ⟨l, e⟩ := lift_list (a.read m) ha
  obtain ⟨out, h1, h2, h3⟩ := hs _ _ hw.sub l
  have h1' : (stable (a.read m).length).onList less (a.read m) = some (out.map Subtype.val) := by
    rw [e, SortProg.onList_map (less := fun x y : { x // P x } => less x.1 y.1) (fun _ _ => rfl), List.length_map, h1]; rfl
  have hl : (out.map Subtype.val).length = a.len := by simpa using (SortProg.onList_perm _ h1').length_eq
  refine ⟨_, goSort_eq stable a m (fun a => funcSortable a less) rfl (fun _ _ => rfl) (fun _ _ => rfl) h1', ?_, onlyIn_write _ _ _ (by omega)⟩
  rw [Sl.read_write_self _ _ _ hl, e, sortedStably_map (less := fun x y : { x // P x } => less x.1 y.1) (fun _ _ => rfl), ← stable_eq hw.sub h2 h3]

/-- C178: the heap functions, if `less` is a strict weak order on the elements. -/
theorem C178_heap (hw : StrictWeakOn P less) (h : List T) (hh : ∀ x ∈ h, P x) :
    (∃ h', makeHeapFunc h less = .ret h' ∧ h'.Perm h ∧ IsHeap less h') ∧
    (IsHeap less h →
      (∀ v, P v → ∃ h', pushHeapFunc h v less = .ret h' ∧ h'.Perm (v :: h) ∧ IsHeap less h') ∧
      (h ≠ [] → ∃ r h', popHeapFunc h less = .ret (r, h') ∧ (r :: h').Perm h ∧ (∀ y ∈ h, less y r = false) ∧ IsHeap less h') ∧
      ∀ i (hi : i < h.length), ∃ h', removeHeapFunc h (i : Int) less = .ret (h[i], h') ∧ (h[i] :: h').Perm h ∧ IsHeap less h') := by
  obtain ⟨l, rfl⟩ := lift_list h hh
  have hf : ∀ a b : { x // P x }, less (Subtype.val a) (Subtype.val b) = (fun x y : { x // P x } => less x.1 y.1) a b := fun _ _ => rfl
  refine ⟨?_, fun H => ⟨fun v hv => ?_, fun hne => ?_, fun i hi => ?_⟩⟩
  · obtain ⟨l', e1, e2, e3⟩ := C07_makeHeapFunc _ hw.sub l
    exact ⟨l'.map Subtype.val, by rw [makeHeapFunc_map hf, e1]; rfl, e2.map _, (isHeap_map Subtype.val less l').2 e3⟩
  · obtain ⟨l', e1, e2, e3⟩ := C10_pushHeapFunc _ hw.sub l ⟨v, hv⟩ ((isHeap_map Subtype.val less l).1 H)
    refine ⟨l'.map Subtype.val, ?_, by simpa using e2.map Subtype.val, (isHeap_map Subtype.val less l').2 e3⟩
    have := pushHeapFunc_map hf l ⟨v, hv⟩
    rw [e1] at this
    exact this
  · obtain ⟨r, l', e1, e2, e3, e4⟩ := C11_popHeapFunc _ hw.sub l (by intro e; apply hne; rw [e]; rfl) ((isHeap_map Subtype.val less l).1 H)
    refine ⟨r.1, l'.map Subtype.val, by rw [popHeapFunc_map hf, e1]; rfl, by simpa using e2.map Subtype.val, ?_, (isHeap_map Subtype.val less l').2 e4⟩
    intro y hy
    obtain ⟨z, hz, e⟩ := List.mem_map.1 hy
    rw [← e]; exact e3 z hz
  · have hil : i < l.length := by simpa using hi
    obtain ⟨l', e1, e2, e3⟩ := C12_removeHeapFunc _ hw.sub l i hil ((isHeap_map Subtype.val less l).1 H)
    refine ⟨l'.map Subtype.val, by rw [removeHeapFunc_map hf, e1, List.getElem_map]; rfl, ?_, (isHeap_map Subtype.val less l').2 e3⟩
    rw [List.getElem_map]
    simpa using e2.map Subtype.val

/-- C178: a queue gives the elements in order, if `less` is a strict weak order on the values pushed. -/
theorem C178_queue (hw : StrictWeakOn P less) (ops : List (PQOp T)) (hp : ∀ v, PQOp.push v ∈ ops → P v) :
    ∃ m, PQRun less [] ops ((newPriorityQueueFunc less).execAll ops).1 m := by
  obtain ⟨ops', rfl⟩ := PQOp.lift ops hp
  have h := (newPriorityQueueFunc (fun x y : { x // P x } => less x.1 y.1)).execAll_run hw.sub
    (by intro i hi; simp [newPriorityQueueFunc] at hi) ops'
  have h' := PQRun.map Subtype.val (less' := less) (fun _ _ => rfl) h
  rw [C178_rename_queue Subtype.val (fun x y : { x // P x } => less x.1 y.1) less (fun _ _ => rfl)]
  exact ⟨_, h'⟩

/-- C178: a skip list is a finite map for every client that uses only keys among which the order is an order. -/
theorem C178_skiplist {impl : SLImpl T} (hl : impl.LawfulOn P) (h : List (Nat × SMOp T V)) (hk : ∀ e ∈ h, e.2.KeysIn P) :
    ∃ sl, SL.run impl newSkipList h = .ret (sl, (SMap.run impl.less [] (opsOf h)).1) := by
  obtain ⟨h', rfl⟩ := lift_history h hk
  obtain ⟨sl, e⟩ := C17_history hl.sub h'
  refine ⟨sl.rekey Subtype.val, ?_⟩
  rw [C178_rename_skiplist, e]
  have := SMap.run_rekey (Subtype.val : { x // P x } → T) impl.less (opsOf h') []
  have e2 : opsOf (h'.map (fun e => (e.1, e.2.rekey Subtype.val))) = (opsOf h').map (SMOp.rekey Subtype.val) := by
    simp [opsOf, List.map_map, Function.comp_def]
  rw [e2]
  have this : SMap.run impl.less [] ((opsOf h').map (SMOp.rekey Subtype.val)) = _ := this
  rw [this, SLImpl.less_pull]
  rfl

/-- A compare function that subtracts is an order only if the differences do not overflow: here a wrapping one on the keys -3 … 3 of a
type with 4 bits. -/
def wrapCmp (a b : Int) : Int := (a - b + 8) % 16 - 8

example : (SLImpl.func wrapCmp).LawfulOn (fun k => -3 ≤ k ∧ k ≤ 3) := by
  have hw : ∀ a b : Int, -3 ≤ a ∧ a ≤ 3 → -3 ≤ b ∧ b ≤ 3 → wrapCmp a b = a - b := by intro a b _ _; unfold wrapCmp; omega
  refine ⟨⟨?_, ?_, ?_⟩, ?_⟩
  · intro a ha; simp [hw a a ha ha]
  · intro a b c ha hb hc; simp only [hw a b ha hb, hw b c hb hc, hw a c ha hc, decide_eq_true_eq]; omega
  · intro a b c ha hb hc; simp only [hw a b ha hb, hw b a hb ha, hw b c hb hc, hw c b hc hb, hw a c ha hc, decide_eq_false_iff_not]; omega
  · intro a b ha hb; rw [hw a b ha hb, hw b a hb ha]; omega

/-- Other keys spoil it: -7 would have to be less than 7. -/
example : wrapCmp (-7) 0 < 0 ∧ wrapCmp 0 7 < 0 ∧ ¬ wrapCmp (-7) 7 < 0 := by decide

/-! ## Floats without NaN -/

theorem strictWeakOn_flip {P : T → Prop} {less : T → T → Bool} (h : StrictWeakOn P less) : StrictWeakOn P (fun x y => less y x) :=
  ⟨h.irrefl, fun a b c ha hb hc h1 h2 => h.trans c b a hc hb ha h2 h1, fun a b c ha hb hc h1 h2 h3 h4 => h.incomp c b a hc hb ha h3 h4 h1 h2⟩

section
variable [ord : GoOrd T] [FloatOrd T]

/-- C178: the values that are not NaN are ordered. -/
theorem C178_floats : StrictWeakOn (fun x : T => isNan x = false) GoOrd.lt ∧ (SLImpl.ordered ord).LawfulOn (fun x => isNan x = false) := by
  have hw : StrictWeakOn (fun x : T => isNan x = false) GoOrd.lt := by
    refine ⟨fun a _ => FloatOrd.irrefl a, fun a b c _ _ _ => FloatOrd.trans a b c, fun a b c _ hb _ h1 _ h3 _ => ?_⟩
    cases h : GoOrd.lt a c with
    | false => rfl
    | true =>
      rcases FloatOrd.between a b c hb h with g | g
      · rw [h1] at g; exact nomatch g
      · rw [h3] at g; exact nomatch g
  exact ⟨hw, hw, fun a b ha hb => FloatOrd.eq_iff a b ha hb⟩

/-- C178: `Sort`, `DescSort`, `StableSort` and `DescStableSort` sort a slice of floats without NaN. -/
theorem C178_float_sort {sort stable : Nat → SortProg} (hs : SortContract sort) (ht : StableContract stable) (a : Sl) (m : Mem T)
    (ha : ∀ x ∈ a.read m, isNan x = false) :
    Sorts GoOrd.lt (sortAsc sort a) a m ∧ Sorts (fun x y => GoOrd.lt y x) (descSort sort a) a m ∧
    (∃ m', stableSort stable a m = .ok () m' ∧ a.read m' = sortedStably GoOrd.lt (a.read m) ∧ OnlyIn m m' a) ∧
    (∃ m', descStableSort stable a m = .ok () m' ∧ a.read m' = sortedStably (fun x y => GoOrd.lt y x) (a.read m) ∧ OnlyIn m m' a) :=
  ⟨C178_sort C178_floats.1 hs a m ha, C178_sort (strictWeakOn_flip C178_floats.1) hs a m ha,
   C178_stable C178_floats.1 ht a m ha, C178_stable (strictWeakOn_flip C178_floats.1) ht a m ha⟩

/-- C178: `MakeMinHeap`, `PushMinHeap`, `PopMinHeap` and `RemoveMinHeap` on floats without NaN. -/
theorem C178_float_heap (h : List T) (hh : ∀ x ∈ h, isNan x = false) :
    (∃ h', makeMinHeap h = .ret h' ∧ h'.Perm h ∧ isMinHeap h' = .ret true) ∧
    (isMinHeap h = .ret true →
      (∀ v, isNan v = false → ∃ h', pushMinHeap h v = .ret h' ∧ h'.Perm (v :: h) ∧ isMinHeap h' = .ret true) ∧
      (h ≠ [] → ∃ r h', popMinHeap h = .ret (r, h') ∧ (r :: h').Perm h ∧ (∀ y ∈ h, GoOrd.lt y r = false) ∧ isMinHeap h' = .ret true) ∧
      ∀ i (hi : i < h.length), ∃ h', removeMinHeap h (i : Int) = .ret (h[i], h') ∧ (h[i] :: h').Perm h ∧ isMinHeap h' = .ret true) := by
  have is : ∀ l : List T, isMinHeap l = .ret true ↔ IsHeap GoOrd.lt l := by
    intro l
    obtain ⟨b, e1, e2⟩ := isMinHeap_spec l
    rw [e1]
    constructor
    · intro e; cases e; exact e2.1 rfl
    · intro e; rw [e2.2 e]
  simp only [is, makeMinHeap_eq, pushMinHeap_eq, popMinHeap_eq, removeMinHeap_eq]
  exact C178_heap C178_floats.1 h hh

/-- C178: `NewPriorityQueue` on floats without NaN. -/
theorem C178_float_queue (ops : List (PQOp T)) (hp : ∀ v, PQOp.push v ∈ ops → isNan v = false) :
    ∃ m, PQRun GoOrd.lt [] ops ((newPriorityQueue : PQ T).execAll ops).1 m := by
  obtain ⟨m, h⟩ := C178_queue C178_floats.1 ops hp
  have := (PQ.execAll_map id ops (newPriorityQueueFunc GoOrd.lt) (newPriorityQueue : PQ T) rfl (fun _ _ => rfl)).1
  have i1 : ops.map (PQOp.map id) = ops := by
    conv => rhs; rw [← List.map_id ops]
    exact List.map_congr_left (fun o _ => by cases o <;> rfl)
  have i2 : ∀ l : List (PQObs T), l.map (PQObs.map id) = l := by
    intro l
    conv => rhs; rw [← List.map_id l]
    exact List.map_congr_left (fun o _ => by cases o <;> rfl)
  rw [i1, i2] at this
  exact ⟨m, by rw [this]; exact h⟩

/-- C178: `NewSkipList` with float keys is a finite map as long as no method is called with NaN. -/
theorem C178_float_skiplist (h : List (Nat × SMOp T V)) (hk : ∀ e ∈ h, e.2.KeysIn (fun x => isNan x = false)) :
    ∃ sl, SL.run (.ordered ord) newSkipList h = .ret (sl, (SMap.run GoOrd.lt [] (opsOf h)).1) :=
  C178_skiplist C178_floats.2 h hk

/-- C178: `IsSorted` and `IsDescSorted` are right for floats without NaN. -/
theorem C178_float_isSorted (a : List T) (ha : ∀ x ∈ a, isNan x = false) :
    (isSorted a = .ret true ↔ SortedBy GoOrd.lt a) ∧ (isDescSorted a = .ret true ↔ SortedBy (fun x y => GoOrd.lt y x) a) := by
  obtain ⟨l, rfl⟩ := lift_list a ha
  have hn : ∀ (R : T → T → Prop) (l : List { x : T // isNan x = false }), Neighbours R (l.map Subtype.val) ↔ Neighbours (fun x y => R x.1 y.1) l := by
    intro R l
    induction l with
    | nil => simp [Neighbours]
    | cons x l ih =>
      cases l with
      | nil => simp [Neighbours]
      | cons y l =>
        have ih : Neighbours R (y.1 :: l.map Subtype.val) ↔ _ := ih
        simp only [List.map_cons, Neighbours, ih]
  obtain ⟨h1, h2⟩ := C64_neighbours (l.map Subtype.val)
  rw [h1, h2, hn, hn, sortedBy_map, sortedBy_map, sortedBy_pairwise, sortedBy_pairwise]
  exact ⟨chain_iff_pairwise C178_floats.1.sub l, chain_iff_pairwise (strictWeakOn_flip C178_floats.1).sub l⟩

end

/-- With floats: infinities are no problem. -/
example : (fun r => r.2) <$> SL.run (.ordered (inferInstance : GoOrd Flt)) newSkipList
      [(0, .insert (.inf false) 'a'), (0, .insert (.inf true) 'b'), (0, .iterate)] =
    .ret [.unit, .unit, .entries [(.inf true, 'b'), (.inf false, 'a')]] := by decide +kernel

end Stl4go
