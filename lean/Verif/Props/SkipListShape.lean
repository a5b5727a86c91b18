import Verif.Proofs.SkipListShape
import Verif.Props.SkipListM
/-!
# Property C172: a skip list does not remember its history

`SL.shape` lists the entries with the levels of their nodes. It is all that later operations depend on: neither the garbage of removed
nodes, nor the scratch array, nor how high the list once was, has any effect.
-/
namespace Stl4go
variable {K V τ τ' : Type} {cmp : CmpM K τ} {cmp' : CmpM K τ'} {c : K → K → Int} {impl : SLImpl K}

/-- C172, the level: `skipList.level`, where every search starts, is always the level of the highest node that is in the list now. -/
theorem C172_level (hl : impl.Lawful) {h : List (Nat × SMOp K V)} {sl : SL K V} (hb : SL.Built impl h sl) : sl.level = sl.highest := by
  obtain ⟨obs, hb⟩ := hb
  obtain ⟨sl', ids, obs', e, hi, ht⟩ := SLInv.run_tight hl h (SLInv.new (V := V) impl.less) tight_new
  rw [hb] at e
  injection e with e
  injection e with e1 e2
  subst e1
  rw [hi.level_eq ht, hi.highest]

/-- C172, calls: two lists, made by any histories, with the same keys on nodes of the same levels: the same operation makes the same
calls of the compare function, in the same order, on both, although values, garbage and scratch array may differ. -/
theorem C172_calls (hc : LawfulCmp c) (ha : AgreesWith cmp c) (h1 h2 : List (Nat × SMOp K V)) (t1 t2 : τ)
    (hs : (SLM.run cmp ⟨newSkipList, t1⟩ h1).2.sl.towers = (SLM.run cmp ⟨newSkipList, t2⟩ h2).2.sl.towers)
    (ha' : AgreesWith cmp' c) (rnd : Nat) (op : SMOp K V) (t : τ') :
    callsOf (SLM.exec cmp'.logged rnd op ⟨(SLM.run cmp ⟨newSkipList, t1⟩ h1).2.sl, (t, [])⟩) =
      callsOf (SLM.exec cmp'.logged rnd op ⟨(SLM.run cmp ⟨newSkipList, t2⟩ h2).2.sl, (t, [])⟩) := by
  obtain ⟨ids1, m1, i1, g1⟩ := history_tight hc ha h1 t1
  obtain ⟨ids2, m2, i2, g2⟩ := history_tight hc ha h2 t2
  generalize (SLM.run cmp ⟨newSkipList, t1⟩ h1).2.sl = sl1 at *
  generalize (SLM.run cmp ⟨newSkipList, t2⟩ h2).2.sl = sl2 at *
  have hl : (SLImpl.func c).Lawful := hc
  obtain ⟨s1, _, a1, _⟩ := i1.exec_labels hl rnd op
  obtain ⟨s2, _, a2, _⟩ := i2.exec_labels hl rnd op
  rw [(exec_follows ha'.logged (t, []) a1).callsOf, (exec_follows ha'.logged (t, []) a2).callsOf,
    opCalls_alike hc i1 g1 i2 g2 (by rw [← i1.towers.1, ← i2.towers.1, hs]) (by rw [← i1.towers.2, ← i2.towers.2, hs])]

/-- C172, for ever: two lists of the same shape, made by any histories, cannot be told apart by any further operations that draw the same
random words. Results, panics and hangs agree, the compare function ends in the same state, so it was called in the same way, and the
shapes stay equal. -/
theorem C172_forever (hc : LawfulCmp c) (ha : AgreesWith cmp c) (h1 h2 : List (Nat × SMOp K V)) (t1 t2 : τ)
    (hs : (SLM.run cmp ⟨newSkipList, t1⟩ h1).2.sl.shape = (SLM.run cmp ⟨newSkipList, t2⟩ h2).2.sl.shape)
    (ha' : AgreesWith cmp' c) (more : List (Nat × SMOp K V)) (t : τ') :
    let r1 := SLM.run cmp' ⟨(SLM.run cmp ⟨newSkipList, t1⟩ h1).2.sl, t⟩ more
    let r2 := SLM.run cmp' ⟨(SLM.run cmp ⟨newSkipList, t2⟩ h2).2.sl, t⟩ more
    r1.1 = r2.1 ∧ r1.2.st = r2.2.st ∧ r1.2.sl.shape = r2.2.sl.shape := by
  obtain ⟨ids1, m1, i1, g1⟩ := history_tight hc ha h1 t1
  obtain ⟨ids2, m2, i2, g2⟩ := history_tight hc ha h2 t2
  obtain ⟨e1, e2, e3⟩ := (SameShape.of_shape i1 g1 i2 g2 hs).run hc ha' more t
  exact ⟨e1, e2, e3.shape⟩

/-- C172, detour: inserting a key that is not in the list and removing it again restores the shape and the level, whatever level its node
was given. -/
theorem C172_detour (hl : impl.Lawful) {h : List (Nat × SMOp K V)} {sl : SL K V} (hb : SL.Built impl h sl) {k : K}
    (hk : sl.has impl k = .ret false) (r1 r2 : Nat) (v : V) :
    ∃ sl', SL.run impl sl [(r1, .insert k v), (r2, .remove k)] = .ret (sl', [.unit, .flag true]) ∧ sl'.shape = sl.shape ∧
      sl'.level = sl.level := by
  obtain ⟨obs, hb⟩ := hb
  obtain ⟨sl', ids, obs', e, hi, ht⟩ := SLInv.run_tight hl h (SLInv.new (V := V) impl.less) tight_new
  rw [hb] at e
  injection e with e
  injection e with e1 e2
  subst e1
  obtain ⟨s2, i2, a1, a2, a3⟩ := hi.detour hl hk r1 r2 v
  obtain ⟨s3, i3, _, b1, b2, b3⟩ := SLInv.run_tight hl [(r1, .insert k v), (r2, .remove k)] hi ht
  rw [a1] at b1
  injection b1 with b1
  injection b1 with b1 _
  subst b1
  refine ⟨s2, a1, by rw [a2.shape, hi.shape, a3], ?_⟩
  rw [b2.level_eq b3, hi.level_eq ht, ← b2.highest, a2.highest, a3]

/-- A detour by way of a node of level 3, and the direct way. -/
def exDetour : List (Nat × SMOp Int Int) :=
  [(2 ^ 38, .insert 5 50), (2 ^ 37, .insert 3 30), (2 ^ 39, .insert 9 90), (0, .find 3), (0, .remove 3), (2 ^ 39, .insert 5 51)]
def exDirect : List (Nat × SMOp Int Int) := [(2 ^ 39, .insert 9 90), (2 ^ 38, .insert 5 51)]

/-- The two histories leave different lists of the same shape; the first was once higher. -/
example : (SLM.run (panicky []) ⟨newSkipList, 0⟩ exDetour).2.sl.shape = [(5, 51, 2), (9, 90, 1)] ∧
    (SLM.run (panicky []) ⟨newSkipList, 0⟩ exDirect).2.sl.shape = [(5, 51, 2), (9, 90, 1)] ∧
    (SLM.run (panicky []) ⟨newSkipList, 0⟩ (exDetour.take 2)).2.sl.level = 3 ∧
    (SLM.run (panicky []) ⟨newSkipList, 0⟩ exDetour).2.sl.level = 2 ∧
    (SLM.run (panicky []) ⟨newSkipList, 0⟩ exDetour).2.sl.nodes.length = 3 ∧
    (SLM.run (panicky []) ⟨newSkipList, 0⟩ exDirect).2.sl.nodes.length = 2 := by decide +kernel

/-- The same calls on both. -/
example : [exDetour, exDirect].map (fun h =>
      callsOf (SLM.exec (panicky []).logged 0 (.find 7) ⟨(SLM.run (panicky []) ⟨newSkipList, 0⟩ h).2.sl, (0, [])⟩)) =
    [some [(5, 7), (9, 7), (9, 7)], some [(5, 7), (9, 7), (9, 7)]] := by decide +kernel

/-- A higher node for 9 would change the calls. -/
example : callsOf (SLM.exec (panicky []).logged 0 (.find 7) ⟨(SLM.run (panicky []) ⟨newSkipList, 0⟩
      [(2 ^ 38, .insert 9 90), (2 ^ 38, .insert 5 51)]).2.sl, (0, [])⟩) = some [(5, 7), (9, 7), (9, 7), (9, 7)] := by decide +kernel

end Stl4go
