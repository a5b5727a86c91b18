import Verif.Proofs.VectorShare
/-!
# Property C142: vectors that share an array (`/repo/vector.go`)

`Vector` is a slice type, so `b := a` and `b := a[lo:hi]` share the array of `a`. Histories use any number of vectors, copies and parts of each other, in any order.
-/
namespace Stl4go
variable {T : Type} [GoZero T]

/-- All histories of operations, copies and parts: what a client sees, capacities included, is what windows on arrays show. -/
theorem C142_history (grow : Nat → Nat → Nat) (m : Mem T) (h : List (VStmt T)) (hv : ∀ c ∈ h, c.Valid) :
    ((VWorld.init m).runC grow h).1 = (Shared.init.run grow h).1 :=
  (ShSim.run grow h (ShSim.init m) hv).choose_spec.1

/-- As long as no operation changes places that another vector shows, vectors are sequences of their own, shared array or not. -/
theorem C142_own (grow : Nat → Nat → Nat) (m : Mem T) (h : List (VStmt T)) (hv : ∀ c ∈ h, c.Valid) (hf : Shared.Fair grow Shared.init h) :
    ((VWorld.init m).runC grow h).1 = (VSeq.runC (fun _ => []) h).1 := by
  rw [C142_history grow m h hv]
  exact (Shared.fair_run grow h (fun _ => []) (ShSim.init m) hv (fun i => by simp [Shared.seq, Shared.init]) hf).1

/-- `AsVector(s)`, and `VectorOf(s...)`, is `s` itself: it has the length, the capacity and the elements of `s`, and what `Set` stores through it is seen in `s`. -/
theorem C142_asVector (s : Sl) (st : VS T) (hs : s.WF st.mem) : ∃ st', Vec.as s st = .ok () st' ∧
    Vec.len st' = .ok s.len st' ∧ Vec.cap st' = .ok s.cap st' ∧ st'.v.read st'.mem = s.read st.mem ∧
    ∀ (i : Nat) (x : T), i < s.len → ∃ st'', Vec.set i x st' = .ok () st'' ∧ s.read st''.mem = (s.read st.mem).set i x := by
  refine ⟨⟨st.mem, s⟩, rfl, rfl, rfl, rfl, fun i x hi => ?_⟩
  obtain ⟨m', e, h⟩ := Vec.set_step i x hs hi
  exact ⟨_, e, h.1.read⟩

/-- A copy is a snapshot as long as the vector is only read, appended to, reserved and shrunk. -/
theorem C142_snapshot (grow : Nat → Nat → Nat) (m : Mem T) (h : List (VStmt T)) (hv : ∀ c ∈ h, c.Valid) (i k : Nat) (hk : k ≠ i) (s : List T) (c : Nat)
    (hs : ((VWorld.init m).runC grow h).2.Shows grow i s c) (mid : List (VOp T)) (hg : ∀ o ∈ mid, o.grows = true) :
    (((VWorld.init m).runC grow h).2.runC grow (.copy k i :: mid.map (.op i) ++ [.op k .values])).1.getLast? = some (.list s) := by
  obtain ⟨a, base, S⟩ := VWorld.after_sim grow m h hv
  obtain ⟨h1, _⟩ := S.shows hs
  obtain ⟨c1, c2, c3, c4⟩ := Shared.copy_seq grow a k i hk
  obtain ⟨_, _, S1⟩ := S.stmt grow (.copy k i) trivial
  rw [S.last _ (by
    intro c hc
    rcases List.mem_cons.1 hc with rfl | hc
    · trivial
    · obtain ⟨o, ho, rfl⟩ := List.mem_map.1 hc
      exact VOp.grows_valid o (hg o ho))]
  simp only [Shared.run]
  rw [Shared.run_grows grow i k hk mid hg S1 (.inr (by rw [c3, c4]; exact Nat.le_refl _)), c1, h1]

/-- Once an operation gives the vector a new array, nothing that is done to it, and no value stored in it, reaches a copy made before; nor the other way round. -/
theorem C142_moved (grow : Nat → Nat → Nat) (m : Mem T) (h : List (VStmt T)) (hv : ∀ c ∈ h, c.Valid) (i k : Nat) (hk : k ≠ i) (s : List T) (c : Nat)
    (hs : ((VWorld.init m).runC grow h).2.Shows grow i s c) (o : VOp T) (ho : o.Valid) (hm : o.moves c s = true) (mid : List (VOp T)) (hmid : ∀ o ∈ mid, o.Valid) :
    (((VWorld.init m).runC grow h).2.runC grow (.copy k i :: .op i o :: mid.map (.op i) ++ [.op k .values])).1.getLast? = some (.list s) ∧
    (((VWorld.init m).runC grow h).2.runC grow (.copy k i :: .op i o :: mid.map (.op k) ++ [.op i .values])).1.getLast? = some (.list (VSeq.step s o).2) := by
  obtain ⟨a, base, S⟩ := VWorld.after_sim grow m h hv
  obtain ⟨h1, h2⟩ := S.shows hs
  obtain ⟨c1, c2, c3, c4⟩ := Shared.copy_seq grow a k i hk
  obtain ⟨_, _, S1⟩ := S.stmt grow (.copy k i) trivial
  obtain ⟨_, _, S2⟩ := S1.stmt grow (.op i o) ho
  have F : (a.stmt grow (.copy k i)).2.Fits := S1.fits
  have hm' : o.moves ((a.stmt grow (.copy k i)).2.wins i).cap ((a.stmt grow (.copy k i)).2.seq i) = true := by rw [c2, c4, h1, h2]; exact hm
  have hd : (((a.stmt grow (.copy k i)).2.op grow i o).wins k).id ≠ (((a.stmt grow (.copy k i)).2.op grow i o).wins i).id := by
    have := (F k).1
    simp only [Shared.op, if_pos hm', upd_at, if_neg hk, if_true]
    omega
  have val : ∀ j, ∀ c ∈ (VStmt.copy k i :: .op i o :: mid.map (.op j) : List (VStmt T)), c.Valid := by
    intro j c hc
    rcases List.mem_cons.1 hc with rfl | hc
    · trivial
    · rcases List.mem_cons.1 hc with rfl | hc
      · exact ho
      · obtain ⟨o, ho, rfl⟩ := List.mem_map.1 hc
        exact hmid o ho
  constructor
  · rw [S.last _ (val i)]
    simp only [Shared.run]
    rw [Shared.run_other grow i k hk mid hmid S2 hd]
    simp only [Shared.stmt] at c1 F hm' ⊢
    rw [Shared.op_seq_moves grow F i o hm' k hk, c1, h1]
  · rw [S.last _ (val k)]
    simp only [Shared.run]
    rw [Shared.run_other grow k i (Ne.symm hk) mid hmid S2 (Ne.symm hd)]
    simp only [Shared.stmt] at c2 F ⊢
    rw [Shared.op_seq_self grow F i o ho, c2, h1]

/-- What a copy shows after one operation on the vector, exactly: if the operation gives the vector a new array, the elements as they were. Otherwise it shows as many places as
before, with what they hold now; places no longer in use hold the zero value. -/
theorem C142_one (grow : Nat → Nat → Nat) (m : Mem T) (h : List (VStmt T)) (hv : ∀ c ∈ h, c.Valid) (i k : Nat) (hk : k ≠ i) (s : List T) (c : Nat)
    (hs : ((VWorld.init m).runC grow h).2.Shows grow i s c) (o : VOp T) (ho : o.Valid) :
    (((VWorld.init m).runC grow h).2.runC grow [.copy k i, .op i o, .op k .values]).1 =
      [.unit, (VSeq.step s o).1, .list (if o.moves c s = true then s else (padded s.length (VSeq.step s o).2).take s.length)] := by
  obtain ⟨a, base, S⟩ := VWorld.after_sim grow m h hv
  obtain ⟨h1, h2⟩ := S.shows hs
  obtain ⟨c1, c2, c3, c4⟩ := Shared.copy_seq grow a k i hk
  obtain ⟨_, _, S1⟩ := S.stmt grow (.copy k i) trivial
  obtain ⟨_, e, _⟩ := S.run grow [.copy k i, .op i o, .op k .values] (by
    intro c hc
    simp at hc
    rcases hc with rfl | rfl | rfl
    · trivial
    · exact ho
    · trivial)
  rw [e]
  have F : (a.stmt grow (.copy k i)).2.Fits := S1.fits
  have e1 := Shared.op_seq_same grow F i o ho k hk (by rw [c3, c4])
  rw [c2, c4, h1, h2] at e1
  have e2 : (VSeq.step ((a.stmt grow (.copy k i)).2.seq i) o).1 = (VSeq.step s o).1 := by rw [c2, h1]
  show [DObs.unit, (VSeq.step ((a.stmt grow (.copy k i)).2.seq i) o).1, DObs.list (((a.stmt grow (.copy k i)).2.op grow i o).seq k)] = _
  rw [e2, e1]

/-- A push to both: while there is room in the shared array, the second value takes the place of the first, and both vectors show it. Without room each shows its own. -/
theorem C142_both (grow : Nat → Nat → Nat) (m : Mem T) (h : List (VStmt T)) (hv : ∀ c ∈ h, c.Valid) (i k : Nat) (hk : k ≠ i) (s : List T) (c : Nat)
    (hs : ((VWorld.init m).runC grow h).2.Shows grow i s c) (x y : T) :
    (((VWorld.init m).runC grow h).2.runC grow [.copy k i, .op i (.pushBack x), .op k (.pushBack y), .op k .values]).1.getLast? = some (.list (s ++ [y])) ∧
    (((VWorld.init m).runC grow h).2.runC grow [.copy k i, .op i (.pushBack x), .op k (.pushBack y), .op i .values]).1.getLast? =
      some (.list (if s.length < c then s ++ [y] else s ++ [x])) := by
  obtain ⟨a, base, S⟩ := VWorld.after_sim grow m h hv
  obtain ⟨h1, h2⟩ := S.shows hs
  obtain ⟨c1, c2, c3, c4⟩ := Shared.copy_seq grow a k i hk
  have val : ∀ c ∈ ([.copy k i, .op i (.pushBack x), .op k (.pushBack y)] : List (VStmt T)), c.Valid := by
    intro c hc
    simp at hc
    rcases hc with rfl | rfl | rfl <;> trivial
  obtain ⟨_, _, S1⟩ := S.stmt grow (.copy k i) trivial
  obtain ⟨_, _, S2⟩ := S1.stmt grow (.op i (.pushBack x)) trivial
  have F1 : (a.stmt grow (.copy k i)).2.Fits := S1.fits
  have F2 : ((a.stmt grow (.copy k i)).2.op grow i (.pushBack x)).Fits := S2.fits
  have hl := F1.len i
  have hc := (F1 i).2.1
  rw [c2, c4, h1] at hl
  rw [c4, h2, ← hl] at hc
  have hi := Shared.op_seq_self grow F1 i (.pushBack x) trivial
  have hkk := Shared.op_seq_same grow F1 i (.pushBack x) trivial k hk (by rw [c3, c4])
  rw [c2, h1] at hi
  rw [c2, c4, h1, h2] at hkk
  simp only [VSeq.step] at hi hkk
  have hkk : ((a.stmt grow (.copy k i)).2.op grow i (.pushBack x)).seq k = s := by
    rw [hkk]
    split
    · rfl
    · simp [padded]
  have hend := Shared.op_seq_self grow F2 k (.pushBack y) trivial
  rw [hkk] at hend
  refine ⟨?_, ?_⟩
  · refine (S.last [.copy k i, .op i (.pushBack x), .op k (.pushBack y)] val k).trans ?_
    exact congrArg (fun l => some (DObs.list l)) hend
  · refine (S.last [.copy k i, .op i (.pushBack x), .op k (.pushBack y)] val i).trans ?_
    refine congrArg (fun l => some (DObs.list l)) ?_
    show (((a.stmt grow (.copy k i)).2.op grow i (.pushBack x)).op grow k (.pushBack y)).seq i = _
    have hwk : ((a.stmt grow (.copy k i)).2.op grow i (.pushBack x)).wins k = a.wins i := by
      rw [Shared.op_wins grow _ i _ k hk, c3]
    by_cases hroom : s.length < c
    · rw [if_pos hroom]
      have hwi : ((a.stmt grow (.copy k i)).2.op grow i (.pushBack x)).wins i = { a.wins i with len := s.length + 1 } := by
        have : ¬ VOp.moves c s (.pushBack x) = true := by simp [VOp.moves]; omega
        simp only [Shared.op, c2, c4, h1, h2, if_neg this, upd_at, if_true, VSeq.step]
        simp
      refine List.ext_getElem? (fun q => ?_)
      by_cases hq : q < s.length + 1
      · rw [Shared.op_seq_get? grow F2 k (.pushBack y) trivial (by rw [hwk, hkk, h2]; simp [VOp.moves]; omega) i (Ne.symm hk) (by rw [hwi, hwk]) q (by rw [hwi]; exact hq)]
        rw [hkk, hwi, hwk, if_pos (by simp [VSeq.step]; omega)]
        simp [padded, VSeq.step]
      · rw [List.getElem?_eq_none, List.getElem?_eq_none]
        · simp; omega
        · obtain ⟨_, _, S3⟩ := S2.stmt grow (.op k (.pushBack y)) trivial
          have F3 : (((a.stmt grow (.copy k i)).2.op grow i (.pushBack x)).op grow k (.pushBack y)).Fits := S3.fits
          rw [F3.len i]
          rw [Shared.op_wins grow _ k _ i (Ne.symm hk), hwi]
          exact Nat.le_of_not_lt hq
    · rw [if_neg hroom]
      rw [Shared.op_seq_moves grow F2 k (.pushBack y) (by rw [hwk, hkk, h2]; simp [VOp.moves]; omega) i (Ne.symm hk), hi]

/-! ## Concrete cases -/

/-- The growth of the examples: the old capacity doubled. -/
def shareGrow (c n : Nat) : Nat := max n (2 * c)

/-- `v0 = VectorOf(1,2,3); v0.Reserve(8); v1 = v0; v0.PushBack(7); v1.PushBack(9)`, then both are listed: 7 is lost. -/
def sharePush : List (VStmt Int) :=
  [.op 0 (.of [1, 2, 3]), .op 0 (.reserve 8), .copy 1 0, .op 0 (.pushBack 7), .op 1 (.pushBack 9), .op 0 .values, .op 1 .values, .cap 1]

example : ((VWorld.init { cell := fun _ => (0 : Int), top := 0 }).runC shareGrow sharePush).1 =
    [.unit, .unit, .unit, .unit, .unit, .list [1, 2, 3, 9], .list [1, 2, 3, 9], .num 8] := by decide +kernel
example : (Shared.init.run shareGrow sharePush).1 = [.unit, .unit, .unit, .unit, .unit, .list [1, 2, 3, 9], .list [1, 2, 3, 9], .num 8] := by decide +kernel
example : ∀ c ∈ sharePush, c.Valid := by simp [sharePush, VStmt.Valid, VOp.Valid]

/-- Parts: `v1 = v0[1:3]`, and `v2 = v1[0:4]` beyond the end of `v1`; removing from `v1` shifts elements of `v0`. -/
def shareParts : List (VStmt Int) :=
  [.op 0 (.of [1, 2, 3, 4, 5]), .part 1 0 1 3, .op 1 .values, .cap 1, .part 2 1 0 4, .op 2 .values, .op 1 (.remove 0), .op 0 .values, .op 1 .values, .op 2 .values, .part 1 0 2 6]

example : ((VWorld.init { cell := fun _ => (0 : Int), top := 0 }).runC shareGrow shareParts).1 =
    [.unit, .unit, .list [2, 3], .num 4, .unit, .list [2, 3, 4, 5], .unit, .list [1, 3, 0, 4, 5], .list [3], .list [3, 0, 4, 5], .panicked] := by decide +kernel

/-- The two halves of a vector: changes of one half are not seen in the other, so this history is fair although all three share the array. -/
def shareHalves : List (VStmt Int) :=
  [.op 0 (.of [4, 3, 2, 1]), .part 1 0 0 2, .part 2 0 2 4, .op 0 .make, .op 1 (.set 0 9), .op 2 (.remove 0), .op 1 .values, .op 2 .values]

example : ((VWorld.init { cell := fun _ => (0 : Int), top := 0 }).runC shareGrow shareHalves).1 = (VSeq.runC (fun _ => []) shareHalves).1 := by decide +kernel
example : Shared.Fair shareGrow Shared.init shareHalves := by
  refine ⟨fun h => absurd h (by decide), .inl (by decide), .inl (by decide), fun h => absurd h (by decide), fun _ k hk => ?_, fun _ k hk => ?_, fun _ k hk => ?_, fun _ k hk => ?_, trivial⟩
  all_goals match k, hk with
    | 0, _ => exact .inl (by decide)
    | 1, hk => first
      | exact absurd rfl hk
      | exact .inr (.inr (.inl ⟨0, by decide, by decide, by decide, by decide⟩))
    | 2, hk => first
      | exact absurd rfl hk
      | exact .inr (.inr (.inr (by decide)))
    | k + 3, _ => exact .inr (.inl rfl)

end Stl4go
