import Verif.Proofs.GoroutineCalls
import Verif.Props.Transform
/-!
# Property C174: goroutines that work on different elements

Any number of goroutines make one call each, at the same time. `interleave` lets them access elements one at a time, in an order given by a schedule, which is arbitrary: the
scheduler may stop a goroutine before any access. `SliceCall.sees` and `SliceCall.changes` are the elements of the slices that a call is given, to look at and to write to.
-/
namespace Stl4go
variable {T : Type} [GoEq T] [GoZero T]

/-- C174, alone: the goroutine of a call, if no other does anything, does what the call does: the same result, the same memory, or the same panic. -/
theorem C174_alone (c : SliceCall T) : c.thread.run = c.call := c.run_thread

/-- C174, results: a goroutine that has ended has the result, or the panic, of its call made alone in the memory of the beginning. The elements it was given are as that call alone would
have left them. This is so whatever the other goroutines have done meanwhile and have still to do. -/
theorem C174_results (cs : Nat → SliceCall T) (ha : CallsApart cs) (m : Mem T) (schedule : List Nat) (i : Nat) {o : Outcome SliceRet}
    (he : ((interleave (fun i => (cs i).thread) m schedule).1 i).ended = some o) :
    o = ((cs i).call m).outcome ∧
    ∀ m', (∃ a, (cs i).call m = .ok a m') ∨ (cs i).call m = .panic m' →
      ∀ p, (cs i).sees p → (interleave (fun i => (cs i).thread) m schedule).2.cell p = m'.cell p := by
  obtain ⟨h1, h2⟩ := (ha.separate.side schedule m).1 i
  rw [h1] at he
  obtain ⟨e1, e2⟩ := Thread.alone_ended_run _ _ _ he
  rw [← (cs i).run_thread]
  refine ⟨e1, fun m' hm p hp => ?_⟩
  rw [h2 p hp, e2, ((cs i).thread.alone_run m _ (Nat.le_refl _)).2 m' hm]

/-- C174, progress: a goroutine that the scheduler has let run as often as its call alone would access elements has ended. The others cannot hold it up. -/
theorem C174_progress (cs : Nat → SliceCall T) (ha : CallsApart cs) (m : Mem T) (schedule : List Nat) (i : Nat)
    (hn : (cs i).thread.steps m ≤ schedule.count i) :
    ((interleave (fun i => (cs i).thread) m schedule).1 i).ended = some ((cs i).call m).outcome := by
  rw [((ha.separate.side schedule m).1 i).1, ← (cs i).run_thread]
  exact ((cs i).thread.alone_run m _ hn).1

/-- C174, the rest: elements that no call was given to write are as before. -/
theorem C174_rest (cs : Nat → SliceCall T) (ha : CallsApart cs) (m : Mem T) (schedule : List Nat) (p : Nat) (hp : ∀ i, ¬ (cs i).changes p) :
    (interleave (fun i => (cs i).thread) m schedule).2.cell p = m.cell p := (ha.separate.side schedule m).2.1 p hp

/-- C174, order: two schedules that let every goroutine come to its end lead to the same memory. One of them may let the goroutines run one after another. -/
theorem C174_order (cs : Nat → SliceCall T) (ha : CallsApart cs) (m : Mem T) (s1 s2 : List Nat)
    (h1 : ∀ i, (cs i).thread.steps m ≤ s1.count i) (h2 : ∀ i, (cs i).thread.steps m ≤ s2.count i) :
    (interleave (fun i => (cs i).thread) m s1).2 = (interleave (fun i => (cs i).thread) m s2).2 := by
  obtain ⟨a1, a2, a3⟩ := ha.separate.side s1 m
  obtain ⟨b1, b2, b3⟩ := ha.separate.side s2 m
  refine Mem.ext' (fun p => ?_) (a3.trans b3.symm)
  by_cases h : ∃ i, (cs i).changes p
  · obtain ⟨i, hi⟩ := h
    have hs := (cs i).own p hi
    have e1 := (a1 i).2 p hs
    have e2 := (b1 i).2 p hs
    rw [e1, e2, Thread.alone_enough _ _ _ (h1 i), Thread.alone_enough _ _ _ (h2 i)]
  · rw [a2 p (fun i hi => h ⟨i, hi⟩), b2 p (fun i hi => h ⟨i, hi⟩)]

/-- C174, no data race: at no time do two goroutines have the same element for their next access, unless both would only read it. -/
theorem C174_race (cs : Nat → SliceCall T) (ha : CallsApart cs) (m : Mem T) (schedule : List Nat) (i j : Nat) (hij : i ≠ j) {p : Nat} {w w' : Bool}
    (hi : ((interleave (fun i => (cs i).thread) m schedule).1 i).next = some (p, w)) (hj : ((interleave (fun i => (cs i).thread) m schedule).1 j).next = some (p, w')) :
    w = false ∧ w' = false := by
  have hs := ha.separate.reached schedule m
  obtain ⟨r1, w1⟩ := (hs.within i).next (hs.own i) hi
  obtain ⟨r2, w2⟩ := (hs.within j).next (hs.own j) hj
  refine ⟨?_, ?_⟩
  · cases w with
    | false => rfl
    | true => exact absurd r2 (ha i j hij p (w1 rfl))
  · cases w' with
    | false => rfl
    | true => exact absurd r1 (ha j i (Ne.symm hij) p (w2 rfl))

/-- The part of `a` from index `cut i` to `cut (i+1)`. -/
def Sl.part (a : Sl) (cut : Nat → Nat) (i : Nat) : Sl := { off := a.off + cut i, len := cut (i + 1) - cut i, cap := a.cap - cut i }

/-- C174, in parallel: if a slice is cut into any parts, and each part is given to `Transform` in a goroutine of its own, then once all have ended the memory is that after `Transform` on the
whole slice. -/
theorem C174_parallel (a : Sl) (op : T → T) (m : Mem T) (cut : Nat → Nat) (n : Nat) (h0 : cut 0 = 0) (hm : ∀ i j, i ≤ j → cut i ≤ cut j) (hn : ∀ i, n ≤ i → cut i = a.len)
    (schedule : List Nat)
    (he : ∀ i, ((interleave (fun i => (SliceCall.transform (a.part cut i) op).thread) m schedule).1 i).ended ≠ none) :
    transform a (fun (_ : Unit) v => ((), op v)) () m = .ok () (interleave (fun i => (SliceCall.transform (a.part cut i) op).thread) m schedule).2 := by
  have ha : CallsApart (fun i => SliceCall.transform (a.part cut i) op) := by
    intro i j hij p hi hj
    obtain ⟨p1, p2⟩ : (a.part cut i).Cell p := hi
    obtain ⟨q1, q2⟩ : (a.part cut j).Cell p := hj
    simp only [Sl.part] at p1 p2 q1 q2
    rcases Nat.lt_or_gt_of_ne hij with h | h
    · have := hm (i + 1) j h; omega
    · have := hm (j + 1) i h; omega
  obtain ⟨m', e, hc⟩ := transform_cell a op m
  rw [e]
  congr 1
  refine Mem.ext' (fun p => ?_) ?_
  · by_cases hp : a.Cell p
    · rw [(hc p).1 hp]
      -- the part in which `p` is
      have hpart : ∃ i, (a.part cut i).Cell p := by
        obtain ⟨p1, p2⟩ := hp
        have key : ∀ k, p < a.off + cut k → ∃ i, (a.part cut i).Cell p := by
          intro k
          induction k with
          | zero => intro h; omega
          | succ k ih =>
            intro h
            by_cases h2 : p < a.off + cut k
            · exact ih h2
            · refine ⟨k, ?_, ?_⟩ <;> simp only [Sl.part] <;> omega
        exact key n (by have := hn n (Nat.le_refl _); omega)
      obtain ⟨i, hi⟩ := hpart
      cases ho : ((interleave (fun i => (SliceCall.transform (a.part cut i) op).thread) m schedule).1 i).ended with
      | none => exact absurd ho (he i)
      | some o =>
        obtain ⟨m1, e1, hc1⟩ := transform_cell (a.part cut i) op m
        have ec : (SliceCall.transform (a.part cut i) op).call m = .ok .unit m1 := by
          show (do let _ ← transform (a.part cut i) (fun (_ : Unit) v => ((), op v)) (); pure SliceRet.unit : GoM (Mem T) SliceRet) m = _
          rw [GoM.bind_ok e1]; rfl
        rw [(C174_results _ ha m schedule i ho).2 m1 (Or.inl ⟨_, ec⟩) p hi, (hc1 p).1 hi]
    · rw [(hc p).2 hp, C174_rest _ ha m schedule p (fun i hi => hp ?_)]
      obtain ⟨p1, p2⟩ : (a.part cut i).Cell p := hi
      simp only [Sl.part] at p1 p2
      have h1 := hm (i + 1) (max n (i + 1)) (Nat.le_max_right _ _)
      rw [hn _ (Nat.le_max_left _ _)] at h1
      exact ⟨by omega, by omega⟩
  · have : m'.top = m.top := by
      rw [transform_eq] at e
      injection e with _ e
      rw [← e]; rfl
    rw [this, (ha.separate.side schedule m).2.2]

/-- Three goroutines: two reverse and transform the halves of an array, the third searches a slice behind it; others have nothing to do. -/
def exCalls : Nat → SliceCall Int
  | 0 => .reverse ⟨0, 3, 3⟩
  | 1 => .transform ⟨3, 2, 2⟩ (· * 10)
  | 2 => .lowerBound ⟨5, 3, 3⟩ 8 (fun x y => decide (x < y))
  | _ => .find Sl.empty 0

example : CallsApart exCalls := by
  intro i j hij p hi hj
  match i, j with
  | 0, 0 | 1, 1 => exact hij rfl
  | 0, 1 | 0, 2 | 1, 0 | 1, 2 => simp only [exCalls, SliceCall.changes, SliceCall.sees, Sl.Cell] at hi hj; omega
  | 0, j + 3 | 1, j + 3 => simp only [exCalls, SliceCall.changes, SliceCall.sees, Sl.Cell, Sl.empty] at hi hj; omega
  | 2, _ => exact hi
  | i + 3, _ => exact hi

/-- A schedule that stops each of them in the middle. -/
example : let r := interleave (fun i => (exCalls i).thread) (memOf [1, 2, 3, 4, 5, 7, 8, 9]) [0, 1, 2, 0, 1, 0, 1, 2, 1, 0]
    Sl.read r.2 ⟨0, 8, 8⟩ = [3, 2, 1, 40, 50, 7, 8, 9] ∧
    [0, 1, 2].map (fun i => (r.1 i).ended) = [some (.ret .unit), some (.ret .unit), some (.ret (.num 1))] := by decide +kernel

/-- Goroutines on overlapping slices do disturb each other: the same two calls, one of them moved. -/
example : let ts : Nat → Thread Int SliceRet := fun i => if i = 0 then (SliceCall.reverse ⟨0, 3, 3⟩).thread else (SliceCall.transform ⟨2, 2, 2⟩ (· * 10)).thread
    Sl.read (interleave ts (memOf [1, 2, 3, 4]) [0, 0, 0, 0, 1, 1, 1, 1]).2 ⟨0, 4, 4⟩ = [3, 2, 10, 40] ∧
    Sl.read (interleave ts (memOf [1, 2, 3, 4]) [0, 1, 1, 1, 1, 0, 0, 0]).2 ⟨0, 4, 4⟩ = [3, 2, 1, 40] := by decide +kernel

/-- Five elements cut into parts of two, two and one; the goroutines take turns. -/
def exCut (i : Nat) : Nat := min (2 * i) 5

def exTurns : List Nat := [0, 1, 2, 0, 1, 2, 0, 1, 0, 1]

example : transform ⟨1, 5, 5⟩ (fun (_ : Unit) v => ((), v * 10)) () (memOf [0, 1, 2, 3, 4, 5, 6]) =
    .ok () (interleave (fun i => (SliceCall.transform (Sl.part ⟨1, 5, 5⟩ exCut i) (· * 10)).thread) (memOf [0, 1, 2, 3, 4, 5, 6]) exTurns).2 := by
  refine C174_parallel _ _ _ exCut 3 rfl (fun i j h => ?_) (fun i h => ?_) _ (fun i => ?_)
  · unfold exCut; omega
  · show min (2 * i) 5 = 5; omega
  · match i with
    | 0 | 1 | 2 => decide +kernel
    | i + 3 =>
      have ha : CallsApart (fun i => SliceCall.transform (Sl.part ⟨1, 5, 5⟩ exCut i) (fun (x : Int) => x * 10)) := by
        intro i j hij p hi hj
        simp only [SliceCall.changes, SliceCall.sees, Sl.Cell, Sl.part, exCut] at hi hj
        omega
      have hp : Sl.part ⟨1, 5, 5⟩ exCut (i + 3) = ⟨6, 0, 0⟩ := by simp only [Sl.part, exCut, Sl.mk.injEq]; omega
      have h0 : (SliceCall.transform (Sl.part ⟨1, 5, 5⟩ exCut (i + 3)) (fun (x : Int) => x * 10)).thread.steps (memOf [0, 1, 2, 3, 4, 5, 6]) = 0 := by rw [hp]; rfl
      have := C174_progress _ ha (memOf [0, 1, 2, 3, 4, 5, 6]) exTurns (i + 3) (by rw [h0]; exact Nat.zero_le _)
      rw [this]
      exact fun h => nomatch h

end Stl4go
