import Verif.Proofs.SortWitness
import Verif.Props.Transform
/-!
# Properties C62-C64, C89: `/repo/sort.go`

`sort` and `stable` are any algorithms in place of `sort.Sort` and `sort.Stable`; that they meet their documented contracts is a
hypothesis (`Spec/Sort.lean`), which insertion sort fulfils (`Proofs/SortWitness.lean`). `m` is any memory and `a` any slice.
-/
namespace Stl4go
variable {T : Type}

/-- The call has sorted the slice by `less` and changed nothing else. -/
def Sorts (less : T → T → Bool) (call : GoM (Mem T) Unit) (a : Sl) (m : Mem T) : Prop :=
  ∃ m', call m = .ok () m' ∧ (a.read m').Perm (a.read m) ∧ SortedBy less (a.read m') ∧ OnlyIn m m' a

theorem goSort_sorts {less : T → T → Bool} {sort : Nat → SortProg} (hs : SortContract sort) (hw : StrictWeak less) (a : Sl) (m : Mem T)
    (f : Sl → SortIface (Mem T)) (hlen : (f a).len = pure a.len)
    (hless : ∀ i j, (f a).less i j = (do let y ← a.get i; let z ← a.get j; return less y z)) (hswap : ∀ i j, (f a).swap i j = sortSwap a i j) :
    Sorts less (goSort sort (f a)) a m := by
  obtain ⟨out, h1, h2⟩ := hs T less hw (a.read m)
  have hp := SortProg.onList_perm _ h1
  have hl : out.length = a.len := by simpa using hp.length_eq
  refine ⟨_, goSort_eq sort a m f hlen hless hswap h1, ?_, ?_, onlyIn_write _ _ _ (by omega)⟩
  · rw [Sl.read_write_self _ _ _ hl]; exact hp
  · rw [Sl.read_write_self _ _ _ hl]; exact h2

/-! ## C62 -/

/-- C62: `SortFunc`. -/
theorem C62_sortFunc {sort : Nat → SortProg} (hs : SortContract sort) (less : T → T → Bool) (hw : StrictWeak less) (a : Sl) (m : Mem T) :
    Sorts less (sortFunc sort a less) a m :=
  goSort_sorts hs hw a m (fun a => funcSortable a less) rfl (fun _ _ => rfl) (fun _ _ => rfl)

/-- C62: `Sort` sorts in ascending order. -/
theorem C62_sort [GoOrd T] [LawfulGoOrd T] {sort : Nat → SortProg} (hs : SortContract sort) (a : Sl) (m : Mem T) :
    Sorts GoOrd.lt (sortAsc sort a) a m :=
  goSort_sorts hs LawfulGoOrd.weak a m ascSlice rfl (fun _ _ => rfl) (fun _ _ => rfl)

/-- C62: `DescSort` sorts in descending order. -/
theorem C62_descSort [GoOrd T] [LawfulGoOrd T] {sort : Nat → SortProg} (hs : SortContract sort) (a : Sl) (m : Mem T) :
    Sorts (fun x y => GoOrd.lt y x) (descSort sort a) a m :=
  goSort_sorts hs (StrictWeak.flip LawfulGoOrd.weak) a m descSlice rfl (fun _ _ => rfl) (fun _ _ => rfl)

/-- C62: after `Sort` and `DescSort` the checks succeed. -/
theorem C62_check [GoOrd T] [LawfulGoOrd T] {sort : Nat → SortProg} (hs : SortContract sort) (a : Sl) (m : Mem T) :
    (∃ m', sortAsc sort a m = .ok () m' ∧ isSorted (a.read m') = .ret true) ∧
    (∃ m', descSort sort a m = .ok () m' ∧ isDescSorted (a.read m') = .ret true) := by
  constructor
  · obtain ⟨m', e, _, h, _⟩ := C62_sort hs a m
    obtain ⟨b, e2, h2⟩ := isSorted_ret (a.read m')
    refine ⟨m', e, ?_⟩
    rw [e2, h2.2 ((chain_iff_pairwise (LawfulGoOrd.weak (T := T)) _).2 ((sortedBy_pairwise _).1 h))]
  · obtain ⟨m', e, _, h, _⟩ := C62_descSort hs a m
    obtain ⟨b, e2, h2⟩ := isDescSorted_ret (a.read m')
    refine ⟨m', e, ?_⟩
    rw [e2, h2.2 ((chain_iff_pairwise (StrictWeak.flip (LawfulGoOrd.weak (T := T))) _).2 ((sortedBy_pairwise _).1 h))]

example : ∃ m', sortAsc insertionProg ⟨1, 4, 5⟩ (memOf [9, 3, 1, 2, 1, 0, 7]) = .ok () m' ∧ Sl.read m' ⟨0, 7, 7⟩ = [9, 1, 1, 2, 3, 0, 7] :=
  ⟨_, rfl, by decide⟩

example : ∃ m', descSort insertionProg ⟨1, 4, 5⟩ (memOf [9, 3, 1, 2, 1, 0, 7]) = .ok () m' ∧ Sl.read m' ⟨0, 7, 7⟩ = [9, 3, 2, 1, 1, 0, 7] :=
  ⟨_, rfl, by decide⟩

/-! ## C63 -/

/-- C63: `StableSortFunc` leaves exactly the stable arrangement, which is the only sorted one that keeps the order of equivalent elements. -/
theorem C63_stableSortFunc {stable : Nat → SortProg} (hs : StableContract stable) (less : T → T → Bool) (hw : StrictWeak less) (a : Sl) (m : Mem T) :
    ∃ m', stableSortFunc stable a less m = .ok () m' ∧ a.read m' = sortedStably less (a.read m) ∧ OnlyIn m m' a := by
  obtain ⟨out, h1, h2, h3⟩ := hs T less hw (a.read m)
  have hl : out.length = a.len := by simpa using (SortProg.onList_perm _ h1).length_eq
  refine ⟨_, goSort_eq stable a m (fun a => funcSortable a less) rfl (fun _ _ => rfl) (fun _ _ => rfl) h1, ?_, onlyIn_write _ _ _ (by omega)⟩
  rw [Sl.read_write_self _ _ _ hl]
  exact stable_eq hw h2 h3

/-- C63: `StableSort`. -/
theorem C63_stableSort [GoOrd T] [LawfulGoOrd T] {stable : Nat → SortProg} (hs : StableContract stable) (a : Sl) (m : Mem T) :
    ∃ m', stableSort stable a m = .ok () m' ∧ a.read m' = sortedStably GoOrd.lt (a.read m) ∧ OnlyIn m m' a :=
  C63_stableSortFunc hs GoOrd.lt LawfulGoOrd.weak a m

/-- C63: `DescStableSort`. -/
theorem C63_descStableSort [GoOrd T] [LawfulGoOrd T] {stable : Nat → SortProg} (hs : StableContract stable) (a : Sl) (m : Mem T) :
    ∃ m', descStableSort stable a m = .ok () m' ∧ a.read m' = sortedStably (fun x y => GoOrd.lt y x) (a.read m) ∧ OnlyIn m m' a :=
  C63_stableSortFunc hs (fun x y => GoOrd.lt y x) (StrictWeak.flip LawfulGoOrd.weak) a m

/-- C63: what `sortedStably` is: a sorted permutation that keeps the order of equivalent elements, and there is no other. -/
theorem C63_unique (less : T → T → Bool) (hw : StrictWeak less) (xs : List T) :
    SortedBy less (sortedStably less xs) ∧ KeepsOrder less xs (sortedStably less xs) ∧ (sortedStably less xs).Perm xs ∧
    ∀ out, SortedBy less out → KeepsOrder less xs out → out = sortedStably less xs :=
  ⟨(sortedStably_spec hw xs).1, (sortedStably_spec hw xs).2.1, (sortedStably_spec hw xs).2.2, fun _ h1 h2 => stable_eq hw h1 h2⟩

example : sortedStably (fun x y : Int × Int => decide (x.1 < y.1)) [(2, 0), (1, 0), (2, 1), (1, 1)] = [(1, 0), (1, 1), (2, 0), (2, 1)] := by decide

/-! ## C64 -/

/-- C64: `IsSorted` is true exactly when no later element is less than an earlier one. -/
theorem C64_isSorted [GoOrd T] [LawfulGoOrd T] (a : List T) : ∃ b, isSorted a = .ret b ∧ (b = true ↔ SortedBy GoOrd.lt a) := by
  obtain ⟨b, e, h⟩ := isSorted_ret a
  exact ⟨b, e, by rw [h, chain_iff_pairwise (LawfulGoOrd.weak (T := T)), sortedBy_pairwise]⟩

/-- C64: `IsDescSorted` is true exactly when no later element is greater than an earlier one. -/
theorem C64_isDescSorted [GoOrd T] [LawfulGoOrd T] (a : List T) :
    ∃ b, isDescSorted a = .ret b ∧ (b = true ↔ SortedBy (fun x y => GoOrd.lt y x) a) := by
  obtain ⟨b, e, h⟩ := isDescSorted_ret a
  exact ⟨b, e, by rw [h, chain_iff_pairwise (StrictWeak.flip (LawfulGoOrd.weak (T := T))), sortedBy_pairwise]⟩

/-- C64: without any law of `<`, both only say something about neighbours. -/
theorem C64_neighbours [GoOrd T] (a : List T) :
    (isSorted a = .ret true ↔ Neighbours (fun x y => GoOrd.lt y x = false) a) ∧
    (isDescSorted a = .ret true ↔ Neighbours (fun x y => GoOrd.lt x y = false) a) := by
  obtain ⟨b, e, h⟩ := isSorted_ret a
  obtain ⟨c, e', h'⟩ := isDescSorted_ret a
  rw [← h, ← h', e, e']
  simp

/-- C64: a NaN makes the two differ: [2, NaN, 1] passes both checks. -/
theorem C64_nan : isSorted [NanInt.num 2, .nan, .num 1] = .ret true ∧ isDescSorted [NanInt.num 1, .nan, .num 2] = .ret true ∧
    ¬ SortedBy GoOrd.lt [NanInt.num 2, .nan, .num 1] := by
  refine ⟨rfl, rfl, fun h => ?_⟩
  have := h 0 2 (by decide) (by decide) (by decide)
  revert this
  decide

example : isSorted ([1, 2, 2, 5] : List Int) = .ret true ∧ isSorted ([1, 3, 2] : List Int) = .ret false ∧
    isDescSorted ([5, 2, 2, 1] : List Int) = .ret true ∧ isDescSorted ([5, 2, 3] : List Int) = .ret false := by decide

/-! ## C89 -/

/-- C89: with any function `less` the slice is rearranged and nothing else changed, for an algorithm that stays inside the slice. -/
theorem C89_sortFunc {sort : Nat → SortProg} (hs : StaysInside sort) (less : T → T → Bool) (a : Sl) (m : Mem T) :
    ∃ m', sortFunc sort a less m = .ok () m' ∧ (a.read m').Perm (a.read m) ∧ OnlyIn m m' a := by
  obtain ⟨out, h1⟩ := hs T less (a.read m)
  have hp := SortProg.onList_perm _ h1
  have hl : out.length = a.len := by simpa using hp.length_eq
  refine ⟨_, goSort_eq sort a m (fun a => funcSortable a less) rfl (fun _ _ => rfl) (fun _ _ => rfl) h1, ?_, onlyIn_write _ _ _ (by omega)⟩
  rw [Sl.read_write_self _ _ _ hl]
  exact hp

/-- C89: the others, for any type, so also for floats with NaN. -/
theorem C89_others [GoOrd T] {sort : Nat → SortProg} (hs : StaysInside sort) (a : Sl) (m : Mem T) :
    (∃ m', sortAsc sort a m = .ok () m' ∧ (a.read m').Perm (a.read m) ∧ OnlyIn m m' a) ∧
    (∃ m', stableSort sort a m = .ok () m' ∧ (a.read m').Perm (a.read m) ∧ OnlyIn m m' a) ∧
    (∃ m', descSort sort a m = .ok () m' ∧ (a.read m').Perm (a.read m) ∧ OnlyIn m m' a) ∧
    (∃ m', descStableSort sort a m = .ok () m' ∧ (a.read m').Perm (a.read m) ∧ OnlyIn m m' a) ∧
    (∀ less, ∃ m', stableSortFunc sort a less m = .ok () m' ∧ (a.read m').Perm (a.read m) ∧ OnlyIn m m' a) :=
  ⟨C89_sortFunc hs GoOrd.lt a m, C89_sortFunc hs GoOrd.lt a m, C89_sortFunc hs (fun x y => GoOrd.lt y x) a m,
    C89_sortFunc hs (fun x y => GoOrd.lt y x) a m, fun less => C89_sortFunc hs less a m⟩

example : SortContract insertionProg ∧ StableContract insertionProg ∧ StaysInside insertionProg := ⟨insertion_sorts, insertion_stable, insertion_inside⟩

end Stl4go
