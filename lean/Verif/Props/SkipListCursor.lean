import Verif.Proofs.SkipListCursor
import Verif.Props.SkipList
/-!
# Property C120: iterators and pointers of `/repo/skiplist.go` while the map changes

A history has one skip list, any number of iterators and any number of pointers to values. The specification, `SCSpec`, knows entries, removed
entries and positions among them, no nodes, levels or links.
-/
namespace Stl4go
variable {K V : Type} {impl : SLImpl K}

/-- C120: whatever is done with the map between the steps of the iterators and the uses of the pointers, every observation is the one the
specification gives. -/
theorem C120_history (hl : impl.Lawful) (ops : List (SCOp K V)) :
    (SCWorld.init.run impl ops).1 = (SCSpec.init.run impl.less ops).1 :=
  (SCInv.run hl ops (SCInv.init impl)).1

/-- C120: a loop that continues from an iterator of `Iterate`, `LowerBound` or `UpperBound` after any history shows what the iterator has
ahead of it, and it ends. -/
theorem C120_rest (hl : impl.Lawful) (ops : List (SCOp K V)) (c : Nat) :
    let w := (SCWorld.init.run impl ops).2
    let s := (SCSpec.init.run impl.less ops).2
    (s.curs c).stop = none →
    ∀ fuel, (s.rest impl.less (s.curs c)).length < fuel → (w.curs c).collect w.sl fuel = .ret (s.rest impl.less (s.curs c)) := by
  intro w s hs fuel hf
  obtain ⟨ids, D, I⟩ := SCInv.after hl ops
  have h := I.curs c
  have hst : (w.curs c).stop = none := by
    have h2 := h.2
    have hs' : ((SCSpec.init.run impl.less ops).2.curs c).stop = none := hs
    rw [hs'] at h2
    show ((SCWorld.init.run impl ops).2.curs c).stop = none
    cases e : ((SCWorld.init.run impl ops).2.curs c).stop with
    | none => rfl
    | some _ => rw [e] at h2; exact h2.elim
  have := I.collect hl _ h.1 fuel hf
  have e : w.curs c = { node := (w.curs c).node, stop := none } := by
    cases hc : w.curs c; rw [hc] at hst; simp at hst; simp [hst]
  rw [e]
  exact this

/-- C120: an iterator of `Iterate`, `LowerBound` or `UpperBound` has a key and a value, and can move on, exactly if it says that it is not at
the end, whatever happened to the entry it is on. -/
theorem C120_usable (hl : impl.Lawful) (ops : List (SCOp K V)) (c : Nat) :
    let w := (SCWorld.init.run impl ops).2
    ((SCSpec.init.run impl.less ops).2.curs c).stop = none →
    ((w.step impl (.isNotEnd c)).1 = .of (.flag true) ↔ ∃ k, (w.step impl (.key c)).1 = .key k) ∧
    ((w.step impl (.isNotEnd c)).1 = .of (.flag true) ↔ ∃ v, (w.step impl (.value c)).1 = .of (.val (some v))) ∧
    ((w.step impl (.isNotEnd c)).1 = .of (.flag true) ↔ (w.step impl (.next c)).1 = .of .unit) := by
  intro w hs
  obtain ⟨ids, D, I⟩ := SCInv.after hl ops
  have e1 : (w.step impl (.isNotEnd c)).1 = _ := (I.step hl (.isNotEnd c)).1
  have e2 : (w.step impl (.key c)).1 = _ := (I.step hl (.key c)).1
  have e3 : (w.step impl (.value c)).1 = _ := (I.step hl (.value c)).1
  have e4 : (w.step impl (.next c)).1 = _ := (I.step hl (.next c)).1
  rw [e1, e2, e3, e4]
  simp only [SCSpec.step]
  generalize hS : (SCSpec.init.run impl.less ops).2 = S at *
  rcases I.deref hl (I.curs c).1.place with ⟨p1, _⟩ | ⟨d, q, e, n, p1, _, p3, _⟩
  · rcases I.next hl (I.curs c).1 with ⟨_, n1, _⟩ | ⟨q, n, nx, d, m1, _, _, n1, _⟩
    · rw [hs, p1, n1]; simp [samePlace]
    · have := (I.curs c).1.place; rw [p1, m1] at this; exact this.elim
  · rcases I.next hl (I.curs c).1 with ⟨n0, n1, _⟩ | ⟨q, n, nx, d', _, _, _, n1, _⟩
    · rw [p1] at n0; cases n0
    · rw [hs, p1, n1]; simp only [Option.bind_some, p3]; cases d <;> simp [samePlace]

/-- C120: a pointer to a value that was not nil can be read and written ever after, until the variable is assigned again. -/
theorem C120_pointer (hl : impl.Lawful) (ops more : List (SCOp K V)) (p : Nat) (hp : ∀ op ∈ more, op.setsPtr p = false) (v : V)
    (hv : (((SCWorld.init.run impl ops).2).step impl (.read p)).1 = .of (.val (some v))) :
    let w := (SCWorld.init.run impl (ops ++ more)).2
    (∃ v', (w.step impl (.read p)).1 = .of (.val (some v'))) ∧ ∀ v', (w.step impl (.write p v')).1 = .of .unit := by
  intro w
  obtain ⟨ids, D, I⟩ := SCInv.after hl ops
  obtain ⟨ids', D', J⟩ := SCInv.after hl (ops ++ more)
  rw [(I.step hl (.read p)).1] at hv
  have hs : ((SCSpec.init.run impl.less ops).2.ptrs p).isSome := by
    cases h : (SCSpec.init.run impl.less ops).2.ptrs p with
    | some _ => rfl
    | none => simp [SCSpec.step, h] at hv
  rw [SCSpec.ptr_run (less := impl.less) more hp, ← SCSpec.run_append] at hs
  rcases J.deref hl (J.ptrs p) with ⟨p1, _⟩ | ⟨d, q, e, n, p1, _, p3, _⟩
  · rw [p1] at hs; simp at hs
  · refine ⟨⟨e.2, ?_⟩, fun v' => ?_⟩
    · rw [(J.step hl (.read p)).1]; simp [SCSpec.step, p1, p3]
    · rw [(J.step hl (.write p v')).1]; simp [SCSpec.step, p1]

/-! ## Concrete cases -/

/-- Two iterators over one map; entries appear, disappear and are written to under them; the first one survives a `Clear`. -/
def exSCursors : List (SCOp Int Int) :=
  [.map (2 ^ 37) (.insert 5 50), .map (2 ^ 39) (.insert 9 90), .map (2 ^ 38) (.insert 1 10), .iterate 0, .findRange 1 2 6, .find 0 5,
   .map 0 (.insert 3 30), .key 0, .next 0, .key 0, .map 0 (.remove 3), .value 0, .key 1, .pointer 1 1, .write 1 55, .read 0, .next 1, .isNotEnd 1,
   .map 0 (.remove 5), .read 0, .write 0 7, .read 1, .map 0 (.find 5), .map 0 (.insert 5 51), .next 0, .key 0, .value 0, .next 0, .key 0,
   .map 0 .clear, .map 0 .len, .key 0, .isNotEnd 0, .next 0, .isNotEnd 0, .next 0, .key 0, .read 3]

example : (SCSpec.init.run exImpl.less exSCursors).1 =
    [.of .unit, .of .unit, .of .unit, .of .unit, .of .unit, .of (.flag true),
     .of .unit, .key 1, .of .unit, .key 3, .of (.flag true), .of (.val (some 30)), .key 5, .of .unit, .of .unit, .of (.val (some 55)), .of .unit,
     .of (.flag false),
     .of (.flag true), .of (.val (some 55)), .of .unit, .of (.val (some 7)), .of (.val none), .of .unit, .of .unit, .key 5, .of (.val (some 7)),
     .of .unit, .key 9,
     .of .unit, .of (.num 0), .key 9, .of (.flag true), .of .unit, .of (.flag false), .of .panicked, .of .panicked, .of .panicked] := by decide +kernel

/-- What iterator 0 has ahead of it before and after entry 3, on which it is, was removed; the end of iterator 1 is the entry of key 9. -/
example : ((SCSpec.init.run exImpl.less (exSCursors.take 10)).2.rest exImpl.less ((SCSpec.init.run exImpl.less (exSCursors.take 10)).2.curs 0),
    (SCSpec.init.run exImpl.less (exSCursors.take 11)).2.rest exImpl.less ((SCSpec.init.run exImpl.less (exSCursors.take 11)).2.curs 0),
    (SCSpec.init.run exImpl.less (exSCursors.take 11)).2.map,
    ((SCSpec.init.run exImpl.less (exSCursors.take 11)).2.curs 0).stop, ((SCSpec.init.run exImpl.less (exSCursors.take 11)).2.curs 1).stop) =
    ([(3, 30), (5, 50), (9, 90)], [(3, 30), (5, 50), (9, 90)], [(1, 10), (5, 50), (9, 90)], none, some (.live 9)) := by decide +kernel

end Stl4go
