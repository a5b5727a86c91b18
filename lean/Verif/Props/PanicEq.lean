import Verif.Proofs.PanicEq
/-!
# C134: element types whose `==` can panic

`GoEqP.eq v x` is what the expression `v == x` does: `some` answer, or `none` when it panics. Every theorem is about an arbitrary such function.
-/
namespace Stl4go
variable {T : Type} [GoEqP T]

/-- C134: `Find` and `Index` ask about the elements in order and stop at the first one whose answer is not false: they give its position if it is
true and panic if it panics. What comes later is not compared. No memory is written. -/
theorem C134_find (a : Sl) (x : T) (m : Mem T) :
    (∀ i, FirstOther ((a.read m).map (GoEqP.eq · x)) (· = some false) i (some true) → findP a x m = .ok ((i : Int), true) m ∧ indexP a x m = .ok (i : Int) m)
      ∧ (∀ i, FirstOther ((a.read m).map (GoEqP.eq · x)) (· = some false) i none → findP a x m = .panic m ∧ indexP a x m = .panic m)
      ∧ ((∀ v ∈ a.read m, GoEqP.eq v x = some false) → findP a x m = .ok (-1, false) m ∧ indexP a x m = .ok (-1) m) := by
  have key := findPLoop_eq a x m (a.read m) [] rfl
  simp only [List.length_nil, Sl.read_length, Nat.zero_add] at key
  have none_all : ∀ {i r}, FirstOther ((a.read m).map (GoEqP.eq · x)) (· = some false) i r → ¬ ∀ v ∈ a.read m, GoEqP.eq v x = some false := by
    intro i r hi hall
    have := List.mem_of_getElem? hi.1
    obtain ⟨v, hv, e⟩ := List.mem_map.mp this
    exact hi.2.1 (by rw [← e]; exact hall v hv)
  refine ⟨fun i hi => ?_, fun i hi => ?_, fun hall => ?_⟩
  · rcases key with ⟨j, hj, h1, h2⟩ | ⟨j, hj, h1, h2⟩ | ⟨h, _⟩
    · obtain ⟨rfl, _⟩ := FirstOther.unique hi hj
      exact ⟨h1, h2⟩
    · cases (FirstOther.unique hi hj).2
    · exact absurd h (none_all hi)
  · rcases key with ⟨j, hj, h1, h2⟩ | ⟨j, hj, h1, h2⟩ | ⟨h, _⟩
    · cases (FirstOther.unique hi hj).2
    · exact ⟨h1, h2⟩
    · exact absurd h (none_all hi)
  · rcases key with ⟨j, hj, _⟩ | ⟨j, hj, _⟩ | ⟨_, h⟩
    · exact absurd hall (none_all hj)
    · exact absurd hall (none_all hj)
    · exact h

/-- C134: `Count` compares every element: it panics exactly if one of the comparisons does. -/
theorem C134_count (a : Sl) (x : T) (m : Mem T) :
    ((∀ v ∈ a.read m, GoEqP.eq v x ≠ none) → countP a x m = .ok ((a.read m).countP (fun v => GoEqP.eq v x == some true)) m)
      ∧ ((∃ v ∈ a.read m, GoEqP.eq v x = none) → countP a x m = .panic m) := by
  have key := countPLoop_eq a x m (a.read m) [] 0 rfl
  simpa [countP] using key

/-- C134: `Equal` says false for different lengths without a comparison; else the first pair whose answer is not true decides. -/
theorem C134_equal (a b : Sl) (m : Mem T) :
    (a.len ≠ b.len → equalP a b m = .ok false m)
      ∧ (a.len = b.len →
        (∀ i, FirstOther (List.zipWith GoEqP.eq (a.read m) (b.read m)) (· = some true) i (some false) → equalP a b m = .ok false m)
        ∧ (∀ i, FirstOther (List.zipWith GoEqP.eq (a.read m) (b.read m)) (· = some true) i none → equalP a b m = .panic m)
        ∧ ((∀ r ∈ List.zipWith GoEqP.eq (a.read m) (b.read m), r = some true) → equalP a b m = .ok true m)) := by
  refine ⟨fun h => by simp [equalP, h, GoM.pure_apply], fun h => ?_⟩
  have key := equalPLoop_eq a b m h a.len 0 (by omega)
  simp only [List.drop_zero] at key
  have he : equalP a b m = equalPLoop a b a.len 0 m := by unfold equalP; rw [if_neg (by omega)]
  rw [he]
  have none_all : ∀ {i r}, FirstOther (List.zipWith GoEqP.eq (a.read m) (b.read m)) (· = some true) i r →
      ¬ ∀ r ∈ List.zipWith GoEqP.eq (a.read m) (b.read m), r = some true :=
    fun hi hall => hi.2.1 (hall _ (List.mem_of_getElem? hi.1))
  refine ⟨fun i hi => ?_, fun i hi => ?_, fun hall => ?_⟩
  · rcases key with ⟨j, hj, h1⟩ | ⟨j, hj, h1⟩ | ⟨h, _⟩
    · exact h1
    · cases (FirstOther.unique hi hj).2
    · exact absurd h (none_all hi)
  · rcases key with ⟨j, hj, h1⟩ | ⟨j, hj, h1⟩ | ⟨h, _⟩
    · cases (FirstOther.unique hi hj).2
    · exact h1
    · exact absurd h (none_all hi)
  · rcases key with ⟨j, hj, _⟩ | ⟨j, hj, _⟩ | ⟨_, h⟩
    · exact absurd hall (none_all hj)
    · exact absurd hall (none_all hj)
    · exact h

/-- C134: a `Replace` that panics at element `i` has replaced what is equal to `old` before `i` and nothing from `i` on. -/
theorem C134_replace (a : Sl) (old new : T) (m : Mem T) :
    (∀ i, FirstPanic ((a.read m).map (GoEqP.eq · old)) i → ∃ m', replaceP a old new m = .panic m' ∧ OnlyIn m m' a
        ∧ a.read m' = ((a.read m).take i).map (fun v => if GoEqP.eq v old = some true then new else v) ++ (a.read m).drop i)
      ∧ ((∀ v ∈ a.read m, GoEqP.eq v old ≠ none) → ∃ m', replaceP a old new m = .ok () m' ∧ OnlyIn m m' a
        ∧ a.read m' = (a.read m).map (fun v => if GoEqP.eq v old = some true then new else v)) := by
  have hl := substP_length old new (a.read m)
  rw [Sl.read_length] at hl
  refine ⟨fun i hi => ⟨m.write a.off (substP old new (a.read m)).1, ?_, onlyIn_write _ _ _ (by omega), ?_⟩,
    fun hall => ⟨m.write a.off (substP old new (a.read m)).1, ?_, onlyIn_write _ _ _ (by omega), ?_⟩⟩
  · rw [replaceP_eq, (substP_spec old new (a.read m)).1 i hi]; rfl
  · rw [Sl.read_write_self _ _ _ hl, (substP_spec old new (a.read m)).1 i hi]; rfl
  · rw [replaceP_eq, (substP_spec old new (a.read m)).2 hall]; rfl
  · rw [Sl.read_write_self _ _ _ hl, (substP_spec old new (a.read m)).2 hall]; rfl

/-- C134: a `Remove` that panics at element `i` has moved the elements kept so far to the start; everything after them is as it was, so elements
may be there twice and removed ones may still be there. Without a panic the result holds what was kept, and the elements behind it are as they were too. -/
theorem C134_remove (a : Sl) (x : T) (m : Mem T) (ha : a.WF m) :
    (∀ i, FirstPanic ((a.read m).map (GoEqP.eq · x)) i → ∃ m', removeP a x m = .panic m' ∧ OnlyIn m m' a
        ∧ a.read m' = over (((a.read m).take i).filter (fun v => GoEqP.eq v x == some false)) (a.read m))
      ∧ ((∀ v ∈ a.read m, GoEqP.eq v x ≠ none) → ∃ m', OnlyIn m m' a
        ∧ removeP a x m = .ok { a with len := ((a.read m).filter (fun v => GoEqP.eq v x == some false)).length } m'
        ∧ a.read m' = over ((a.read m).filter (fun v => GoEqP.eq v x == some false)) (a.read m)) := by
  have hl := over_length _ (a.read m) (rejectP_length x (a.read m))
  rw [Sl.read_length] at hl
  refine ⟨fun i hi => ⟨m.write a.off (over (rejectP x (a.read m)).1 (a.read m)), ?_, onlyIn_write _ _ _ (by omega), ?_⟩,
    fun hall => ⟨m.write a.off (over (rejectP x (a.read m)).1 (a.read m)), onlyIn_write _ _ _ (by omega), ?_, ?_⟩⟩
  · rw [removeP_eq a x m ha, (rejectP_spec x (a.read m)).1 i hi]; rfl
  · rw [Sl.read_write_self _ _ _ hl, (rejectP_spec x (a.read m)).1 i hi]
  · rw [removeP_eq a x m ha, (rejectP_spec x (a.read m)).2 hall]; rfl
  · rw [Sl.read_write_self _ _ _ hl, (rejectP_spec x (a.read m)).2 hall]

/-- C134: the same for `Unique`; `runsP` are the elements that start a run, found until the end or the first comparison that panics. -/
theorem C134_unique (a : Sl) (m : Mem T) (ha : a.WF m) (x : T) (s : List T) (hr : a.read m = x :: s) :
    ∃ m', OnlyIn m m' a ∧ a.read m' = over (x :: (runsP x s).1) (x :: s)
      ∧ ((runsP x s).2 = true → uniqueP a m = .panic m')
      ∧ ((runsP x s).2 = false → uniqueP a m = .ok { a with len := (runsP x s).1.length + 1 } m') := by
  have hl := over_length (x :: (runsP x s).1) (x :: s) (by have := runsP_length s x; simp; omega)
  have hal : a.len = (x :: s).length := by rw [← hr]; simp
  have e := uniqueP_eq a m ha x s hr
  rw [hr] at e
  refine ⟨m.write a.off (over (x :: (runsP x s).1) (x :: s)), onlyIn_write _ _ _ (by omega), Sl.read_write_self _ _ _ (by omega), ?_, ?_⟩
  · intro h; rw [e, h]; rfl
  · intro h; rw [e, h]; rfl

/-- C134: `Unique` and `UniqueCopy` of an empty slice compare nothing. -/
theorem C134_unique_empty [GoZero T] (grow : Nat → Nat → Nat) (a : Sl) (m : Mem T) (h : a.len = 0) :
    uniqueP a m = .ok a m ∧ uniqueCopyP grow a m = .ok Sl.empty m := by
  constructor
  · simp [uniqueP, h, GoM.pure_apply]
  · simp [uniqueCopyP, h, GoM.pure_apply]

/-- C134: `RemoveCopy` panics exactly if a comparison does; either way no memory there was before is written. -/
theorem C134_removeCopy [GoZero T] (grow : Nat → Nat → Nat) (a : Sl) (x : T) (m : Mem T) (ha : a.WF m) :
    ((∃ v ∈ a.read m, GoEqP.eq v x = none) → ∃ m', removeCopyP grow a x m = .panic m' ∧ Untouched m m')
      ∧ ((∀ v ∈ a.read m, GoEqP.eq v x ≠ none) → ∃ r m', removeCopyP grow a x m = .ok r m' ∧ Fresh m m' r
        ∧ r.read m' = (a.read m).filter (fun v => GoEqP.eq v x == some false)) := by
  obtain ⟨r, m', e, h, hr⟩ := removeCopyP_eq grow a x m ha
  refine ⟨fun ⟨v, hv, hn⟩ => ⟨m', ?_, h.top, h.keep⟩, fun hall => ⟨r, m', ?_, h, ?_⟩⟩
  · rcases firstPanic_or ((a.read m).map (GoEqP.eq · x)) with ⟨i, hi⟩ | hno
    · rw [e, (rejectP_spec x (a.read m)).1 i hi]; rfl
    · exact absurd rfl (hno none (List.mem_map.mpr ⟨v, hv, hn⟩))
  · rw [e, (rejectP_spec x (a.read m)).2 hall]; rfl
  · rw [hr, (rejectP_spec x (a.read m)).2 hall]

/-- C134: `UniqueCopy` panics exactly if one of the comparisons it makes does; either way no memory there was before is written. -/
theorem C134_uniqueCopy [GoZero T] (grow : Nat → Nat → Nat) (a : Sl) (m : Mem T) (ha : a.WF m) (x : T) (s : List T) (hr : a.read m = x :: s) :
    ((runsCopyP x s).2 = true → ∃ m', uniqueCopyP grow a m = .panic m' ∧ Untouched m m')
      ∧ ((runsCopyP x s).2 = false → ∃ r m', uniqueCopyP grow a m = .ok r m' ∧ Fresh m m' r ∧ r.read m' = x :: (runsCopyP x s).1) := by
  obtain ⟨r, m', e, h, hr'⟩ := uniqueCopyP_eq grow a m ha x s hr
  refine ⟨fun hb => ⟨m', ?_, h.top, h.keep⟩, fun hb => ⟨r, m', ?_, h, hr'⟩⟩
  · rw [e, hb]; rfl
  · rw [e, hb]; rfl

/-- C134: with a symmetric `==`, `Unique` and `UniqueCopy` make comparisons with the same answers, so they panic for the same slices. -/
theorem C134_same_runs (hsym : ∀ x y : T, GoEqP.eq x y = GoEqP.eq y x) (x : T) (s : List T) : runsP x s = runsCopyP x s := by
  induction s generalizing x with
  | nil => rfl
  | cons v s ih => simp only [runsP, runsCopyP, hsym v x, ih]

/-- C134: if no comparison panics, all nine functions are those of the other models. -/
theorem C134_total [GoEq T] [GoZero T] (h : ∀ x y : T, GoEqP.eq x y = some (GoEq.eq x y)) (grow : Nat → Nat → Nat) (a b : Sl) (x y : T) (m : Mem T) :
    replaceP a x y m = replace a x y m ∧ removeP a x m = remove a x m ∧ uniqueP a m = unique a m
      ∧ removeCopyP grow a x m = removeCopy grow a x m ∧ uniqueCopyP grow a m = uniqueCopy grow a m
      ∧ findP a x m = .ok (find (a.read m) x) m ∧ indexP a x m = .ok (index (a.read m) x) m ∧ countP a x m = .ok (count (a.read m) x) m
      ∧ ∃ r, equal (a.read m) (b.read m) = .ret r ∧ equalP a b m = .ok r m :=
  ⟨by rw [replaceP_total h], by rw [removeP_total h], by rw [uniqueP_total h], by rw [removeCopyP_total h], by rw [uniqueCopyP_total h],
    (findP_total h a x m).1, (findP_total h a x m).2, countP_total h a x m, equalP_total h a b m⟩

/-! ## Cases -/

section Cases

/-- Values of type `any`: numbers, and slices, which can be compared with numbers but not with slices. -/
inductive AnyVal
  | num (n : Nat)
  | slice (id : Nat)
deriving DecidableEq

instance : GoEqP AnyVal where
  eq
    | .num a, .num b => some (a == b)
    | .slice _, .slice _ => none
    | _, _ => some false

instance : GoZero AnyVal := ⟨.num 0⟩

/-- A slice of some values and the memory it is in. -/
def anyMem (l : List AnyVal) : Mem AnyVal := { cell := fun k => l.getD k (.num 0), top := l.length }
def anySl (l : List AnyVal) : Sl := { off := 0, len := l.length, cap := l.length }

/-- What a call leaves: whether it panicked, and the elements. -/
def leaves {α : Type} (l : List AnyVal) (f : Sl → GoM (Mem AnyVal) α) : Option (Bool × List AnyVal) :=
  match f (anySl l) (anyMem l) with
  | .ok _ m => some (false, (anySl l).read m)
  | .panic m => some (true, (anySl l).read m)
  | .diverge => none

/-- Looking for a slice among numbers is fine until a slice comes. -/
example : leaves [.num 1, .num 2] (fun a => findP a (.slice 0)) = some (false, [.num 1, .num 2]) := by decide +kernel
example : leaves [.num 1, .slice 7] (fun a => findP a (.slice 0)) = some (true, [.num 1, .slice 7]) := by decide +kernel
example : leaves [.num 1, .slice 7] (fun a => findP a (.num 1)) = some (false, [.num 1, .slice 7]) := by decide +kernel

/-- `Unique` that panics after it has moved elements: one slice is there twice. -/
example : leaves [.num 1, .slice 3, .slice 4, .num 2] (fun a => uniqueP a) = some (true, [.num 1, .slice 3, .slice 4, .num 2]) := by decide +kernel
example : leaves [.num 1, .num 1, .num 2, .slice 3, .slice 4] (fun a => uniqueP a) =
    some (true, [.num 1, .num 2, .slice 3, .slice 3, .slice 4]) := by decide +kernel
example : leaves [.num 1, .num 2, .slice 3] (fun a => replaceP a (.num 1) (.num 9)) = some (false, [.num 9, .num 2, .slice 3]) := by decide +kernel
example : leaves [.num 1, .num 2, .slice 3, .num 1] (fun a => removeP a (.slice 0)) = some (true, [.num 1, .num 2, .slice 3, .num 1]) := by decide +kernel

/-- The hypotheses of `C134_find`, `C134_replace` and `C134_remove` can hold. -/
example : FirstPanic ([AnyVal.num 1, .num 2, .slice 3, .num 1].map (GoEqP.eq · (.slice 0))) 2 := by
  refine ⟨by decide, by simp, ?_⟩
  intro j r hj
  rcases j with _ | _ | j
  · rintro ⟨⟩; decide
  · rintro ⟨⟩; decide
  · omega

/-- A `==` in which only the number 5 cannot be compared: `Replace` and `Remove` stop half way. -/
structure Odd where
  n : Nat
deriving DecidableEq

instance : GoEqP Odd where
  eq a b := if a.n = 5 then none else some (a.n == b.n)

def oddLeaves {α : Type} (l : List Nat) (f : Sl → GoM (Mem Odd) α) : Option (Bool × List Nat) :=
  match f { off := 0, len := l.length, cap := l.length } { cell := fun k => ⟨l.getD k 0⟩, top := l.length } with
  | .ok _ m => some (false, (Sl.read m { off := 0, len := l.length, cap := l.length }).map Odd.n)
  | .panic m => some (true, (Sl.read m { off := 0, len := l.length, cap := l.length }).map Odd.n)
  | .diverge => none

example : oddLeaves [1, 2, 1, 5, 1] (fun a => replaceP a ⟨1⟩ ⟨9⟩) = some (true, [9, 2, 9, 5, 1]) := by decide +kernel
example : oddLeaves [1, 2, 1, 3, 5, 1] (fun a => removeP a ⟨1⟩) = some (true, [2, 3, 1, 3, 5, 1]) := by decide +kernel

end Cases

end Stl4go
