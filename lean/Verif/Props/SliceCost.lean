import Verif.Proofs.SliceCost
import Verif.Props.Growth
import Verif.Props.Transform
/-!
# C167: the documented complexities

`AtMost k s x y` (`Spec/SliceCost.lean`) says that in state `s` the call `y` makes at most `k` element accesses, as counted by `x`, the same code over counting primitives, and that
the count covers every cell whose contents matter to the call or are changed by it. It says so of calls that panic, too. `grow` is what the runtime does when `append` needs a new array,
as in C139.
-/
namespace Stl4go
variable {T σ : Type}

/-- C167: the functions that work in place read and write each element once at most (`Reverse`: two reads and two writes for each two elements). "O(len(a))" -/
theorem C167_inPlace [GoEq T] (a : Sl) (m : Mem T) :
    (∀ (op : σ → T → σ × T) t, AtMost (2 * a.len) m (transformAcc a op t) (transform a op t)) ∧
    (∀ old new, AtMost (2 * a.len) m (replaceAcc a old new) (replace a old new)) ∧
    (∀ (pred : σ → T → σ × Bool) new t, AtMost (2 * a.len) m (replaceIfAcc a pred new t) (replaceIf a pred new t)) ∧
    AtMost (2 * a.len) m (uniqueAcc a) (unique a) ∧
    (∀ x, AtMost (2 * a.len) m (removeAcc a x) (remove a x)) ∧
    (∀ (cond : σ → T → σ × Bool) t, AtMost (2 * a.len) m (removeIfAcc a cond t) (removeIf a cond t)) ∧
    AtMost (2 * a.len) m (reverseAcc a) (reverse a) ∧
    (∀ draws, AtMost (4 * draws.length) m (shuffleAcc a draws) (shuffle a draws)) :=
  ⟨fun op t => (transformLoopAcc_within a op _ _ t m).1, fun old new => (replaceLoopAcc_within a old new _ _ m).1, fun pred new t => (replaceIfLoopAcc_within a pred new _ _ t m).1,
    (uniqueAcc_within a).1, fun x => (removeAcc_within a x).1, fun cond t => (removeIfAcc_within a cond t).1,
    ((reverseLoopAcc_within a _ 0 (a.len - 1) m).mono (by omega) (fun _ _ h => h)).1, fun draws => (shuffleAcc_within a draws m).1⟩

/-- C167: `Fill`, `FillPattern` and both versions of `FillZero`, though they double what they copy, access each element twice at most. "O(len(a))" -/
theorem C167_fill [GoZero T] (a : Sl) (m : Mem T) (ha : a.len < 2 ^ 63) :
    (∀ v, AtMost (2 * a.len) m (fillAcc a v) (fill a v)) ∧ (∀ p, AtMost (2 * a.len) m (fillPatternAcc a p) (fillPattern a p)) ∧
    AtMost a.len m (fillZeroAcc a) (fillZero a) ∧ AtMost (2 * a.len) m (fillZeroOldAcc a) (fillZeroOld a) :=
  ⟨fun v => (fillAcc_within a v ha).1, fun p => (fillPatternAcc_within a p ha).1, (clearAcc_within a).1, (fillAcc_within a GoZero.zero ha).1⟩

/-- C167: the functions that make an array of the right size at once. "O(len(a))" -/
theorem C167_copies [GoZero T] [GoEq T] (grow : Nat → Nat → Nat) (a : Sl) (m : Mem T) :
    (∀ (op : σ → T → σ × T) t, AtMost (3 * a.len) m (transformCopyAcc a op t) (transformCopy a op t)) ∧
    (∀ x, AtMost (3 * a.len) m (removeCopyAcc grow a x) (removeCopy grow a x)) ∧
    (∀ (cond : σ → T → σ × Bool) t, AtMost (3 * a.len) m (removeIfCopyAcc grow a cond t) (removeIfCopy grow a cond t)) ∧
    AtMost (3 * a.len) m (reverseCopyAcc grow a) (reverseCopy grow a) ∧
    ∀ K, Modest grow K → AtMost (3 * a.len + K) m (copySliceAcc grow a) (copySlice grow a) ∧ ∀ b, AtMost (3 * a.len + K) m (copyToAcc grow a b) (copyTo grow a b) :=
  ⟨fun op t => (transformCopyAcc_within a op t).1, fun x => (removeCopyAcc_within a x).1, fun cond t => (removeIfCopyAcc_within a cond t).1, (reverseCopyAcc_within a).1,
    fun _ hm => ⟨(copySliceAcc_within hm a).1, fun b => (copyToAcc_within hm a b).1⟩⟩

/-- C167: the functions that append one element after the other to a slice that may have no room: still "O(len(a))", because arrays grow by a factor. -/
theorem C167_appending [GoZero T] [GoEq T] {grow : Nat → Nat → Nat} (hg : Geometric grow) {K : Nat} (hm : Modest grow K) (a : Sl) (m : Mem T) :
    (∀ (op : σ → T → σ × T) t b, AtMost (20 * a.len + 9 * K) m (transformToAcc grow a op t b) (transformTo grow a op t b)) ∧
    AtMost (21 * a.len + 9 * K) m (uniqueCopyAcc grow a) (uniqueCopy grow a) :=
  ⟨fun op t b => (transformToAcc_within hg hm a op t b).1, (uniqueCopyAcc_within hg hm a).1⟩

/-- C167: methods of `Vector` that access one element or two. `PushBack` is "O(1) if v.Len() < v.Cap(), otherwise O(len(v))". -/
theorem C167_vector_one [GoZero T] (grow : Nat → Nat → Nat) (s : VS T) :
    (∀ i, AtMost 1 s (Vec.atAcc i) (Vec.at i)) ∧ (∀ i x, AtMost 1 s (Vec.setAcc i x) (Vec.set i x)) ∧ AtMost 1 s Vec.backAcc Vec.back ∧
    AtMost 2 s Vec.popBackAcc Vec.popBack ∧ AtMost 2 s Vec.tryPopBackAcc Vec.tryPopBack ∧
    (s.v.len < s.v.cap → ∀ x, AtMost 1 s (Vec.pushBackAcc grow x) (Vec.pushBack grow x)) ∧
    ∀ K, Modest grow K → ∀ x, AtMost (3 * s.v.len + 2 + K) s (Vec.pushBackAcc grow x) (Vec.pushBack grow x) :=
  ⟨fun i => (atAcc_within i).1, fun i x => (setAcc_within i x).1, backAcc_within.1, popBackAcc_within.1, tryPopBackAcc_within.1, fun h x => (pushBackAcc_room x h).1,
    fun _ hm x => (pushBackAcc_within hm x).1⟩

/-- C167: methods of `Vector` that go over all elements. -/
theorem C167_vector_all [GoZero T] (grow : Nat → Nat → Nat) (s : VS T) :
    AtMost s.v.len s Vec.clearAcc Vec.clear ∧ (∀ l : Int, AtMost (l.toNat + 2 * s.v.len) s (Vec.reserveAcc l) (Vec.reserve l)) ∧
    (∀ K, Modest grow K → AtMost (3 * s.v.len + K) s (Vec.shrinkAcc grow) (Vec.shrink grow)) ∧
    (∀ (cond : σ → T → σ × Bool) t, AtMost (3 * s.v.len) s (Vec.removeIfAcc cond t) (Vec.removeIf cond t)) ∧
    (∀ (cb : σ → T → σ) t, AtMost s.v.len s (Vec.forEachAcc cb t) (Vec.forEach cb t)) ∧
    (∀ (cb : σ → T → σ × Bool) t, AtMost s.v.len s (Vec.forEachIfAcc cb t) (Vec.forEachIf cb t)) ∧
    (∀ (cb : σ → T → σ × T) t, AtMost (2 * s.v.len) s (Vec.forEachMutableAcc cb t) (Vec.forEachMutable cb t)) ∧
    (∀ (cb : σ → T → σ × T × Bool) t, AtMost (2 * s.v.len) s (Vec.forEachMutableIfAcc cb t) (Vec.forEachMutableIf cb t)) :=
  ⟨clearVAcc_within.1, fun l => (reserveAcc_within l).1, fun _ hm => (shrinkAcc_within hm).1, fun cond t => (removeIfVAcc_within cond t).1, fun cb t => (forEachAcc_within cb t).1,
    fun cb t => (forEachIfAcc_within cb t).1, fun cb t => (forEachMutableAcc_within cb t).1, fun cb t => (forEachMutableIfAcc_within cb t).1⟩

/-- C167: `Insert` moves what is behind `i` and writes what is inserted if there is room, and copies everything once if not; wherever `x` lies, and whatever `i` is.
"O(len(s) + len(v))" -/
theorem C167_insert [GoZero T] (s : VS T) (i : Int) (x : Sl) :
    AtMost (if s.v.len + x.len ≤ s.v.cap then 2 * (s.v.len - i).toNat + 2 * x.len else 3 * (s.v.len + x.len)) s (Vec.insertAcc i x) (Vec.insert i x) := (insertAcc_within i x).1

/-- C167: `Append`. -/
theorem C167_append [GoZero T] {grow : Nat → Nat → Nat} {K : Nat} (hm : Modest grow K) (s : VS T) (x : Sl) :
    AtMost (if s.v.len + x.len ≤ s.v.cap then 2 * x.len else 3 * (s.v.len + x.len) + K) s (Vec.appendAcc grow x) (Vec.append grow x) := (appendVAcc_within hm x).1

/-- C167: the removing methods move what is behind what is removed, and clear what becomes free. For `Remove`: "O(len(s) - i)". -/
theorem C167_remove [GoZero T] (grow : Nat → Nat → Nat) (s : VS T) (hs : s.v.len ≤ s.v.cap) :
    (∀ i j : Int, i ≤ j → AtMost (2 * (s.v.len - j).toNat + (j - i).toNat) s (Vec.removeRangeAcc grow i j) (Vec.removeRange grow i j)) ∧
    (∀ i : Int, AtMost (2 * (s.v.len - i).toNat + 1) s (Vec.removeAcc grow i) (Vec.remove grow i)) ∧
    (∀ i len : Int, 0 ≤ len → AtMost (2 * (s.v.len - i).toNat + len.toNat) s (Vec.removeLengthAcc grow i len) (Vec.removeLength grow i len)) :=
  ⟨fun i j h => (removeRangeAcc_within hs h).1, fun i => ((removeRangeAcc_within hs (show i ≤ i + 1 by omega)).mono (by omega) (fun _ _ h => h)).1,
    fun i len h => ((removeRangeAcc_within hs (show i ≤ i + len by omega)).mono (by omega) (fun _ _ h => h)).1⟩

/-- C167: many calls of `PushBack` cost a constant each, beside what the elements already there cost. -/
theorem C167_pushes [GoZero T] {grow : Nat → Nat → Nat} (hg : Geometric grow) {K : Nat} (hm : Modest grow K) (s : VS T) (hs : s.v.len ≤ s.v.cap) (xs : List T) :
    AtMost (19 * xs.length + 9 * s.v.len + 9 * K) s (Vec.pushAllAcc grow xs) (Vec.pushAll grow xs) :=
  ((pushAllAcc_within hg hm xs s hs).mono (by simp only [pushCost]; omega) (fun _ _ h => h)).1

/-! ## Examples -/

/-- The final count of a run. -/
def exCount {S α : Type} : Res (S × Nat) α → Option Nat
  | .ok _ s => some s.2
  | .panic s => some s.2
  | .diverge => none

/-- `Fill` of seven elements: one write, then 1, 2 and 3 elements copied. -/
example : exCount (fillAcc (⟨0, 7, 7⟩ : Sl) (5 : Int) (memOf [1, 2, 3, 4, 5, 6, 7], 0)) = some 13 := by decide +kernel

/-- `UniqueCopy` of six elements with Go's growth: arrays of 1, 2 and 4 cells. -/
example : exCount (uniqueCopyAcc goGrow (⟨0, 6, 6⟩ : Sl) (memOf [(1 : Int), 1, 2, 3, 3, 4], 0)) = some 22 := by decide +kernel

/-- `Insert` of two elements at 1 into four with room and without; `Remove` at 1, and beyond the end, which panics. -/
example : exCount (Vec.insertAcc (1 : Int) (⟨8, 2, 2⟩ : Sl) (⟨memOf [1, 2, 3, 4, 0, 0, 0, 0, 8, 9], ⟨0, 4, 8⟩⟩, 0)) = some 10 ∧
    exCount (Vec.insertAcc (1 : Int) (⟨8, 2, 2⟩ : Sl) (⟨memOf [1, 2, 3, 4, 0, 0, 0, 0, 8, 9], ⟨0, 4, 4⟩⟩, 0)) = some 18 ∧
    exCount (Vec.removeAcc goGrow (1 : Int) (⟨memOf [1, 2, 3, 4, 0, 0, 0, 0, 8, 9], ⟨0, 4, 8⟩⟩, 0)) = some 5 ∧
    exCount (Vec.removeAcc goGrow (4 : Int) (⟨memOf [1, 2, 3, 4, 0, 0, 0, 0, 8, 9], ⟨0, 4, 8⟩⟩, 0)) = some 0 := by decide +kernel

/-- Ten pushes to a nil vector with Go's growth, for which `C139_go` gives the hypotheses. -/
example : exCount (Vec.pushAllAcc goGrow [1, 2, 3, 4, 5, 6, 7, 8, 9, (10 : Int)] (⟨memOf [], ⟨0, 0, 0⟩⟩, 0)) = some 51 := by decide +kernel

end Stl4go
