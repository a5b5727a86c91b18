import Verif.Proofs.VectorCursor
/-! # C133: iterators of vectors that change -/
namespace Stl4go
variable {T : Type} [GoZero T]

/-- All histories of vectors and their iterators, of any length, with every operation at every moment: the observations are those of the
specification with arrays. -/
theorem C133_history (grow : Nat → Nat → Nat) (m : Mem T) (h : List (VIOp T)) (hv : ∀ op ∈ h, op.Valid) :
    (VIWorld.run grow (VIWorld.init m) h).1 = (VArrays.run grow VArrays.init [] h).1 :=
  (VISim.run grow h (VISim.init m) hv).choose_spec.1

/-- Whatever happened to the vectors: an iterator that says it is not at the end can be read and written; at the end both panic. -/
theorem C133_usable (grow : Nat → Nat → Nat) (m : Mem T) (h : List (VIOp T)) (hv : ∀ op ∈ h, op.Valid) (k : Nat)
    (hk : k < (VIWorld.after grow m h).its.length) (x : T) :
    (∃ y, ((VIWorld.after grow m h).run grow [.isNotEnd k, .value k, .store k x, .value k]).1 = [.flag true, .val y, .unit, .val x])
      ∨ ((VIWorld.after grow m h).run grow [.isNotEnd k, .value k, .store k x, .value k]).1 = [.flag false, .panicked, .panicked, .panicked] := by
  obtain ⟨a, cs, base, S⟩ := VIWorld.after_sim grow m h hv
  rw [S.count] at hk
  obtain ⟨_, e, _⟩ := VISim.run grow [.isNotEnd k, .value k, .store k x, .value k] S (by
    intro op ho
    simp at ho
    rcases ho with rfl | rfl | rfl | rfl <;> trivial)
  rw [e]
  have hc := List.getElem?_eq_getElem hk
  obtain ⟨_, hl⟩ := S.curs _ (List.getElem_mem hk)
  generalize cs[k] = c at hc hl
  by_cases hp : c.pos < c.n
  · left
    refine ⟨(a.arr c.i c.g)[c.lo + c.pos]'(by omega), ?_⟩
    have h1 : (a.arr c.i c.g)[c.lo + c.pos]? = some _ := List.getElem?_eq_getElem (by omega)
    have h2 : ((a.arr c.i c.g).set (c.lo + c.pos) x)[c.lo + c.pos]? = some x := List.getElem?_set_self (by omega)
    simp [VArrays.run, VArrays.exec, hc, hp, h1, VArrays.put, h2]
  · right
    simp [VArrays.run, VArrays.exec, hc, hp]

/-- One operation on the vector after `Iterate`. When it gives the vector another array the iterator shows the elements as they were. Otherwise
it shows as many places as there were elements, with what they hold now: places that are no longer in use hold the zero value, and elements that
were added are not shown. -/
theorem C133_one (grow : Nat → Nat → Nat) (m : Mem T) (h : List (VIOp T)) (hv : ∀ op ∈ h, op.Valid) (i : Nat) (s : List T) (c : Nat)
    (hs : (VIWorld.after grow m h).Shows grow i s c) (op : VOp T) (hop : op.Valid) :
    ((VIWorld.after grow m h).run grow (.iterate i :: .vec i op :: listing (VIWorld.after grow m h).its.length s.length)).1 =
      .unit :: (VSeq.step s op).1 :: listed (if op.moves c s = true then s else (padded s.length (VSeq.step s op).2).take s.length) := by
  obtain ⟨a, cs, base, S⟩ := VIWorld.after_sim grow m h hv
  obtain ⟨h1, h2, h3⟩ := S.shows hs
  rw [S.count]
  obtain ⟨b1, e1, S1⟩ := S.exec grow (.iterate i) trivial
  obtain ⟨b2, e2, S2⟩ := S1.exec grow (.vec i op) hop
  obtain ⟨b3, e3, _⟩ := VISim.run grow (listing cs.length s.length) S2 (listing_valid _ _)
  simp only [VIWorld.run, e1, e2, e3]
  simp only [VArrays.exec]
  have hst : (a.step grow i op).1 = (VSeq.step s op).1 := by simp only [VArrays.step, h1]
  rw [hst]
  congr 2
  have := VArrays.run_listing grow cs.length _ (a.step grow i op).2 (cs ++ [{ i := i, g := a.gen i, lo := 0, n := a.len i, pos := 0 }])
    { i := i, g := a.gen i, lo := 0, n := a.len i, pos := 0 } (by simp) (by
      have := (S2.curs { i := i, g := a.gen i, lo := 0, n := a.len i, pos := 0 } (by simp [VArrays.exec])).2
      simpa [VArrays.exec] using this) (Nat.zero_le _) rfl
  simp only [h3, Nat.sub_zero] at this
  rw [h3, this]
  congr 1
  simp only [VArrays.rest, VArrays.step_cur, h1, h2, List.drop_zero, Nat.add_zero, Nat.sub_zero, h3]
  have hnow : (a.now i).take s.length = s := by
    have := h1
    simp only [VArrays.seq, h3] at this
    exact this
  split
  · exact hnow
  · simp only [rewritten]
    rw [List.take_append_of_le_length (by simp [padded]; omega)]

/-- After `Iterate` the vector is only read, reserved, shrunk and appended to, other vectors are used in any way, other iterators are made and
moved, in any order: the iterator shows exactly the elements that the vector had. -/
theorem C133_growing (grow : Nat → Nat → Nat) (m : Mem T) (h : List (VIOp T)) (hv : ∀ op ∈ h, op.Valid) (i : Nat) (s : List T) (c : Nat)
    (hs : (VIWorld.after grow m h).Shows grow i s c) (mid : List (VIOp T)) (hmv : ∀ op ∈ mid, op.Valid)
    (hmid : ∀ op ∈ mid, op.Keeps i (VIWorld.after grow m h).its.length) :
    ((VIWorld.after grow m h).run grow (.iterate i :: mid ++ listing (VIWorld.after grow m h).its.length s.length)).1.drop (mid.length + 1) =
      listed s := by
  obtain ⟨a, cs, base, S⟩ := VIWorld.after_sim grow m h hv
  obtain ⟨h1, _, h3⟩ := S.shows hs
  rw [S.count] at hmid ⊢
  obtain ⟨b1, e1, S1⟩ := S.exec grow (.iterate i) trivial
  obtain ⟨b2, e2, S2⟩ := VISim.run grow mid S1 hmv
  obtain ⟨b3, e3, _⟩ := VISim.run grow (listing cs.length s.length) S2 (listing_valid _ _)
  have hk := S1.run_keep grow cs.length { i := i, g := a.gen i, lo := 0, n := a.len i, pos := 0 } mid hmv hmid (by simp [VArrays.exec]) (Nat.le_refl _)
    (fun _ => Nat.le_refl _)
  simp only [VArrays.exec] at hk S2 e3
  have := VArrays.run_listing grow cs.length _ _ _ _ hk.1 (S2.curs _ (List.mem_of_getElem? hk.1)).2 (Nat.zero_le _) rfl
  simp only [h3, Nat.sub_zero] at this
  rw [VIWorld.run_append]
  have hd : ((VIWorld.after grow m h).run grow (.iterate i :: mid)).1.length = mid.length + 1 := by rw [VIWorld.run_length]; simp
  rw [← hd, List.drop_left]
  simp only [VIWorld.run]
  rw [e3, h3, this]
  congr 1
  simp only [VArrays.rest, List.drop_zero, Nat.add_zero, Nat.sub_zero]
  rw [h3] at hk
  rw [hk.2]
  simpa only [VArrays.seq, VArrays.now, h3] using h1

/-- After `Iterate` one operation gives the vector another array. Then whatever is done to the vectors, the iterator shows the elements as they
were, and what is stored through it reaches no vector. -/
theorem C133_moved (grow : Nat → Nat → Nat) (m : Mem T) (h : List (VIOp T)) (hv : ∀ op ∈ h, op.Valid) (i : Nat) (s : List T) (c : Nat)
    (hs : (VIWorld.after grow m h).Shows grow i s c) (op : VOp T) (hop : op.Valid) (hmoves : op.moves c s = true) (mid : List (VIOp T))
    (hmv : ∀ op ∈ mid, op.Valid) (hmid : ∀ op ∈ mid, op.Leaves (VIWorld.after grow m h).its.length) :
    ((VIWorld.after grow m h).run grow (.iterate i :: .vec i op :: mid ++ listing (VIWorld.after grow m h).its.length s.length)).1.drop
        (mid.length + 2) = listed s
      ∧ ∀ x j, ((VIWorld.after grow m h).run grow
            (.iterate i :: .vec i op :: mid ++ [.store (VIWorld.after grow m h).its.length x, .vec j .values])).1.drop (mid.length + 3) =
          ((VIWorld.after grow m h).run grow (.iterate i :: .vec i op :: mid ++ [.vec j .values])).1.drop (mid.length + 2) := by
  obtain ⟨a, cs, base, S⟩ := VIWorld.after_sim grow m h hv
  obtain ⟨h1, h2, h3⟩ := S.shows hs
  rw [S.count] at hmid ⊢
  obtain ⟨b1, e1, S1⟩ := S.exec grow (.iterate i) trivial
  obtain ⟨b1', e1', S1'⟩ := S1.exec grow (.vec i op) hop
  obtain ⟨b2, e2, S2⟩ := VISim.run grow mid S1' hmv
  have hgen : (a.step grow i op).2.gen i = a.gen i + 1 := by rw [VArrays.step_gen, h1, h2]; simp [hmoves]
  have hk := VArrays.run_left grow cs.length { i := i, g := a.gen i, lo := 0, n := a.len i, pos := 0 } mid (a.step grow i op).2
    (cs ++ [{ i := i, g := a.gen i, lo := 0, n := a.len i, pos := 0 }]) hmid (by simp) (by simp only; omega)
  simp only [VArrays.exec] at S2
  have hd : ((VIWorld.after grow m h).run grow (.iterate i :: .vec i op :: mid)).1.length = mid.length + 2 := by rw [VIWorld.run_length]; simp
  refine ⟨?_, fun x j => ?_⟩
  · obtain ⟨b3, e3, _⟩ := VISim.run grow (listing cs.length s.length) S2 (listing_valid _ _)
    have := VArrays.run_listing grow cs.length _ _ _ _ hk.1 (S2.curs _ (List.mem_of_getElem? hk.1)).2 (Nat.zero_le _) rfl
    simp only [h3, Nat.sub_zero] at this
    rw [VIWorld.run_append, ← hd, List.drop_left]
    simp only [VIWorld.run] at e3 ⊢
    rw [e3, h3, this]
    congr 1
    simp only [VArrays.rest, List.drop_zero, Nat.add_zero, Nat.sub_zero]
    rw [h3] at hk
    rw [hk.2.1, VArrays.step_cur, h1, h2, if_pos hmoves]
    simpa only [VArrays.seq, h3] using h1
  · obtain ⟨b3, e3, _⟩ := VISim.run grow [.store cs.length x, .vec j .values] S2 (by
      intro o ho
      simp at ho
      rcases ho with rfl | rfl <;> trivial)
    obtain ⟨b4, e4, _⟩ := VISim.run grow [.vec j .values] S2 (by
      intro o ho
      simp at ho
      subst ho
      trivial)
    rw [VIWorld.run_append, VIWorld.run_append]
    rw [← hd, List.drop_left, show mid.length + 3 = ((VIWorld.after grow m h).run grow (.iterate i :: .vec i op :: mid)).1.length + 1 by omega,
      List.drop_append]
    simp only [Nat.add_sub_cancel_left, List.drop_eq_nil_of_le (Nat.le_succ _), List.nil_append]
    simp only [VIWorld.run] at e3 e4 ⊢
    rw [e3, e4]
    generalize VArrays.run grow (a.step grow i op).2 (cs ++ [{ i := i, g := a.gen i, lo := 0, n := a.len i, pos := 0 }]) mid = r at hk
    simp only [VArrays.run, VArrays.exec, hk.1, VArrays.step, VSeq.step, List.drop_succ_cons, List.drop_zero]
    split
    · simp only [VArrays.seq, VArrays.now, VArrays.put]
      rw [if_neg (fun hh => by
        have := hk.2.2
        simp only at this
        rw [hh.1] at hh
        have h4 := hh.2
        omega)]
    · rfl

/-! ## Cases -/

section Cases

/-- The runtime doubles. -/
def twice (_ n : Nat) : Nat := 2 * n

/-- A memory with nothing in it. -/
def noMem : Mem Nat := { cell := fun _ => 0, top := 0 }

/-- `Clear` and new elements under an iterator: it shows the new ones and zeros, and not the third new one. -/
def clearUnder : List (DObs Nat) :=
  (VIWorld.run twice (VIWorld.init noMem)
    (.vec 0 (.of [1, 2, 3, 4]) :: .iterate 0 :: .moveToNext 0 :: .vec 0 .clear :: .vec 0 (.append [7, 8]) :: listing 0 3)).1

example : clearUnder = [.unit, .unit, .unit, .unit, .unit] ++ listed [8, 0, 0] := by decide +kernel

/-- The same with one more place than the array has: the vector moves, the iterator sees nothing of it. -/
def growUnder : List (DObs Nat) :=
  (VIWorld.run twice (VIWorld.init noMem)
    ([.vec 0 (.of [1, 2, 3]), .iterate 0, .vec 0 (.pushBack 9), .vec 0 (.set 0 50), .store 0 70, .vec 0 .values] ++ listing 0 3)).1

example : growUnder = [.unit, .unit, .unit, .unit, .unit, .list [50, 2, 3, 9]] ++ listed [70, 2, 3] := by decide +kernel

/-- Places beyond the length can be reached by `IterateRange`: an element that comes later appears there. -/
def rangeBeyond : List (DObs Nat) :=
  (VIWorld.run twice (VIWorld.init noMem)
    ([.vec 0 (.makeCap 3), .vec 0 (.pushBack 5), .iterateRange 0 1 3, .vec 0 (.append [6, 7])] ++ listing 0 2)).1

example : rangeBeyond = [.unit, .unit, .unit, .unit] ++ listed [6, 7] := by decide +kernel

/-- A state as in the theorems: elements `[1, 2]`, capacity 4. -/
def capFour : List (VIOp Nat) := [.vec 0 (.makeCap 4), .vec 0 (.append [1, 2])]

example : (VIWorld.after twice noMem capFour).Shows twice 0 [1, 2] 4 := by
  constructor <;> decide +kernel

example : (VOp.append [3, 4, 5] : VOp Nat).moves 4 [1, 2] = true ∧ (VOp.append [3, 4] : VOp Nat).moves 4 [1, 2] = false := by decide +kernel

end Cases

end Stl4go
