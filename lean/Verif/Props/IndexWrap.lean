import Verif.Proofs.IndexWrap
/-!
# C169: index arithmetic does not overflow

`Model/IndexWrap.lean` has the functions with every sum and difference of indices reduced to `int`, of `w` bits; elsewhere the model computes with unbounded integers. The two agree
wherever a program can go: every index is an `int`, and so is the length of every slice.
-/
namespace Stl4go
variable {T : Type} {w : Nat}

/-- C169: the searches never leave the range of `int`, however long the slice is, and no matter what the comparison says. -/
theorem C169_searches (hw : 0 < w) (a : List T) (ha : GoInt.int.Holds w a.length) (value : T) :
    (∀ [GoOrd T], lowerBoundInt w a value = (lowerBound a value).toInt ∧ upperBoundInt w a value = (upperBound a value).toInt) ∧
    ∀ less : T → T → Bool, lowerBoundFuncInt w a value less = (lowerBoundFunc a value less).toInt ∧ upperBoundFuncInt w a value less = (upperBoundFunc a value less).toInt := by
  have hl := fun less => lowerBoundFuncLoopInt_eq hw a ha.2 value less (a.length + 1) 0 a.length (by omega)
  have hu := fun less => upperBoundFuncLoopInt_eq hw a ha.2 value less (a.length + 1) 0 a.length (by omega)
  refine ⟨?_, fun less => ⟨hl less, hu less⟩⟩
  intro _
  refine ⟨?_, ?_⟩
  · have e : ∀ fuel loc count, lowerBoundLoop a value fuel loc count = lowerBoundFuncLoop a value GoOrd.lt fuel loc count := by
      intro fuel
      induction fuel with
      | zero => intros; rfl
      | succ fuel ih => intros; simp only [lowerBoundLoop, lowerBoundFuncLoop, ih]
    unfold lowerBoundInt lowerBound
    rw [lowerBoundLoopInt_func, e]
    exact hl _
  · have e : ∀ fuel loc count, upperBoundLoop a value fuel loc count = upperBoundFuncLoop a value GoOrd.lt fuel loc count := by
      intro fuel
      induction fuel with
      | zero => intros; rfl
      | succ fuel ih => intros; simp only [upperBoundLoop, upperBoundFuncLoop, ih]
    unfold upperBoundInt upperBound
    rw [upperBoundLoopInt_func, e]
    exact hu _

/-- C169: `Remove` and `RemoveLength`, for every index and length the caller may pass: a sum that overflows makes them panic and leave everything alone, as it has to. -/
theorem C169_remove [GoZero T] (hw : 0 < w) (grow : Nat → Nat → Nat) (s : VS T) (hs : GoInt.int.Holds w s.v.len) (i : Int) (hi : GoInt.int.Holds w i) :
    (1 < w → Vec.removeInt w grow i s = Vec.remove grow i s) ∧ ∀ len : Int, GoInt.int.Holds w len → Vec.removeLengthInt w grow i len s = Vec.removeLength grow i len s := by
  obtain ⟨P, hP, hmax, hmin, wr, wu, wd⟩ := intWrap_eq hw
  have key : ∀ len : Int, - P ≤ len → len < P → Vec.removeRange grow i (addInt w i len) s = Vec.removeRange grow i (i + len) s := by
    intro len h1 h2
    obtain ⟨i1, i2⟩ := hi
    have hs2 := hs.2
    by_cases c1 : i + len < P
    · by_cases c2 : - P ≤ i + len
      · unfold addInt; rw [wr _ c2 c1]
      · rw [removeRange_negative grow s i _ (by omega), removeRange_negative grow s i _ (by omega)]
    · have : addInt w i len = i + len - 2 * P := by unfold addInt; exact wu _ (by omega) (by omega)
      rw [this, removeRange_stops grow s i _ (by omega), removeRange_stops grow s i _ (by omega)]
  refine ⟨fun h1 => key 1 (by omega) ?_, fun len hl => key len (by have := hl.1; omega) (by have := hl.2; omega)⟩
  have : (1 : Int) < P := by
    have e : GoInt.int.max w = 2 ^ (w - 1) - 1 := rfl
    obtain ⟨v, rfl⟩ : ∃ v, w = v + 2 := ⟨w - 2, by omega⟩
    have hp : (0 : Int) < 2 ^ v := by exact_mod_cast Nat.two_pow_pos v
    have : (2 : Int) ^ (v + 2 - 1) = 2 * 2 ^ v := by rw [show v + 2 - 1 = v + 1 by omega, Int.pow_succ]; omega
    omega
  exact this

/-- C169: `Insert`, for every index the caller may pass, unless the vector would become longer than `int` can say. -/
theorem C169_insert [GoZero T] (hw : 0 < w) (s : VS T) (i : Int) (hi : GoInt.int.Holds w i) (x : Sl) (ht : GoInt.int.Holds w (s.v.len + x.len)) :
    Vec.insertInt w i x s = Vec.insert i x s := by
  obtain ⟨P, hP, hmax, hmin, wr, wu, wd⟩ := intWrap_eq hw
  have ht2 := ht.2
  have et : addInt w s.v.len x.len = ((s.v.len + x.len : Nat) : Int) := by unfold addInt; rw [wr _ (by omega) (by omega)]; omega
  have hx : (x.len : Int) ≤ GoInt.int.max w := by omega
  unfold Vec.insertInt Vec.insert
  refine GoM.bind_congr fun v s' h => ?_
  have hv : v = s.v ∧ s' = s := by unfold VS.recv at h; injection h with h1 h2; exact ⟨h1.symm, h2.symm⟩
  obtain ⟨rfl, rfl⟩ := hv
  simp only [et]
  by_cases c : s'.v.len + x.len ≤ s'.v.cap
  · rw [if_pos (by omega), if_pos c]
    refine GoM.bind_congr fun s2 s3 h => ?_
    have h2 : (s2.len : Int) ≤ GoInt.int.max w := by have := (on_slice h).1; omega
    rw [on_slice_wrapped hw hi hx s2 h2]
  · rw [if_neg (by omega), if_neg c]
    refine GoM.bind_congr fun s2 s3 h => ?_
    have h2 : (s2.len : Int) ≤ GoInt.int.max w := by
      unfold VS.on Sl.make at h
      simp only [if_pos (show (0 : Int) ≤ ((s'.v.len + x.len : Nat) : Int) ∧ ((s'.v.len + x.len : Nat) : Int) ≤ ((s'.v.len + x.len : Nat) : Int) by omega)] at h
      injection h with h1 _
      rw [← h1]; simp only []; omega
    rw [on_slice_wrapped hw hi hx s2 h2]

/-- C169: and if it would – which takes elements of size zero –, `Insert` panics and leaves everything alone. -/
theorem C169_insert_overflow [GoZero T] (hw : 0 < w) (s : VS T) (i : Int) (x : Sl) (hs : GoInt.int.Holds w s.v.len) (hx : GoInt.int.Holds w x.len)
    (ht : ¬ GoInt.int.Holds w (s.v.len + x.len)) : Vec.insertInt w i x s = .panic s := by
  obtain ⟨P, hP, hmax, hmin, wr, wu, wd⟩ := intWrap_eq hw
  have hs2 := hs.2
  have hx2 := hx.2
  have ht2 : P ≤ (s.v.len : Int) + x.len := by unfold GoInt.Holds at ht; omega
  have et : addInt w s.v.len x.len = (s.v.len : Int) + x.len - 2 * P := by unfold addInt; exact wu _ ht2 (by omega)
  unfold Vec.insertInt
  rw [GoM.bind_def]
  show (if addInt w s.v.len x.len ≤ s.v.cap then _ else _ : GoM (VS T) Unit) s = _
  rw [if_pos (by omega), GoM.bind_def, et, on_slice_stops (by omega)]

/-! ## Examples -/

/-- The sum does overflow: to a negative number, or to one that is a valid index. -/
example : addInt 64 1 (2 ^ 63 - 1) = -2 ^ 63 ∧ addInt 64 (-2 ^ 63) (-2 ^ 63 + 2) = 2 := by decide +kernel

/-- Memory with the contents `xs`. -/
def exMem (xs : List Int) : Mem Int := ⟨fun k => xs.getD k 0, xs.length⟩

/-- `RemoveLength(1, MaxInt64)`, `RemoveLength(MinInt64, MinInt64+2)` and `Remove(MaxInt64)` panic; `RemoveLength(1, 2)` works. -/
def exRemove (f : GoM (VS Int) Unit) : Option (Bool × List Int) :=
  match f ⟨exMem [1, 2, 3, 4], ⟨0, 4, 4⟩⟩ with
  | .ok _ s => some (true, s.v.read s.mem)
  | .panic s => some (false, s.v.read s.mem)
  | .diverge => none

example : exRemove (Vec.removeLengthInt 64 (fun _ n => n) 1 (2 ^ 63 - 1)) = some (false, [1, 2, 3, 4]) ∧
    exRemove (Vec.removeLengthInt 64 (fun _ n => n) (-2 ^ 63) (-2 ^ 63 + 2)) = some (false, [1, 2, 3, 4]) ∧
    exRemove (Vec.removeInt 64 (fun _ n => n) (2 ^ 63 - 1)) = some (false, [1, 2, 3, 4]) ∧
    exRemove (Vec.removeLengthInt 64 (fun _ n => n) 1 2) = some (true, [1, 4]) ∧
    exRemove (Vec.insertInt 64 (2 ^ 63 - 1) ⟨0, 2, 2⟩) = some (false, [1, 2, 3, 4]) ∧
    exRemove (Vec.insertInt 64 1 ⟨2, 2, 2⟩) = some (true, [1, 3, 4, 2, 3, 4]) := by decide +kernel

/-- A search, with a width for which the length of the slice is the largest number. -/
example : lowerBoundInt 3 [10, 20, (30 : Int)] 25 = .ret 2 ∧ GoInt.int.Holds 3 3 ∧ ¬ GoInt.int.Holds 3 4 := by decide +kernel

end Stl4go
