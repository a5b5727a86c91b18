import Verif.Proofs.SkipListSetCallback
import Verif.Props.SkipListCallback
/-!
# Property C145: iterators and callbacks of `/repo/skiplist_set.go` while the set changes

The history before a call is any history of calls of the set's methods and of any number of iterators; a callback is any program over
these calls (`SetProg`).
-/
namespace Stl4go
variable {K σ : Type} {impl : SLImpl K}

/-- Whatever the client does next with the set and the iterators, it sees what this state of the specification shows. -/
def SCWorld.ShowsSet (impl : SLImpl K) (w : SCWorld K Unit) (s : SCSpec K Unit) : Prop := ∀ ops, (w.krun impl ops).1 = (s.krun impl.less ops).1

/-- The call ended like the specification, and whatever the client does next it sees the state the specification gives. -/
def EndsLikeSet {α : Type} (impl : SLImpl K) : Res (SCWorld K Unit) α → Res (SWalk K Unit) α → Prop
  | .ok a w, .ok b x => a = b ∧ w.ShowsSet impl x.spec
  | .panic w, .panic x => w.ShowsSet impl x.spec
  | .diverge, .diverge => True
  | _, _ => False

theorem HoldsS.showsSet (hl : impl.Lawful) {w : SCWorld K Unit} {x : SWalk K Unit} (h : HoldsS impl w x) : w.ShowsSet impl x.spec :=
  fun ops => HoldsS.krun hl ops (s := x.spec) h

theorem FitsS.endsLikeSet {α : Type} (hl : impl.Lawful) {r : Res (SCWorld K Unit) α} {r' : Res (SWalk K Unit) α}
    (h : FitsS (HoldsS impl) (HoldsS impl) r r') : EndsLikeSet impl r r' := by
  cases r <;> cases r' <;> first | exact h.elim | trivial | exact ⟨h.1, h.2.showsSet hl⟩ | exact HoldsS.showsSet hl h

/-- C145: every history of calls of the set and of its iterators, panics of the iterators included, shows what the specification of C120 says. -/
theorem C145_history (hl : impl.Lawful) (ops : List (SetOp K)) : (SCWorld.init.krun impl ops).1 = (SCSpec.init.krun impl.less ops).1 :=
  (Reached.init.run hl ops).1

/-- C145: after every such history the methods of the set are those of a sorted set. -/
theorem C145_methods (hl : impl.Lawful) (ops : List (SetOp K)) : ∃ L : List K, L.Pairwise (fun a b => impl.less a b = true) ∧
    ∀ op, ((SCWorld.init.krun impl ops).2.kstep impl (.set op)).1 = .of (SSet.step impl.less L op).1 ∧
      (((SCWorld.init.krun impl ops).2.kstep impl (.set op)).2.kstep impl (.set .keys)).1 = .of (.list (SSet.step impl.less L op).2) := by
  obtain ⟨h, e1, _⟩ := ((Reached.init (impl := impl)).run hl ops).2
  obtain ⟨ids, D, I⟩ := SCInv.after hl h
  rw [← e1] at I
  refine ⟨_, List.pairwise_map.2 I.base.inv.sorted, fun op => ?_⟩
  obtain ⟨s', ids', m', a1, a2, a3⟩ := I.base.inv.set_exec hl op
  obtain ⟨s2, _, _, b1, _, _⟩ := a2.set_exec hl .keys
  simp only [SCWorld.kstep, a1, SCWorld.kseen, b1, a3]
  exact ⟨trivial, rfl⟩

/-- C145: `ForEachIf` with a callback that does anything with the set and the iterators. -/
theorem C145_forEachIf (hl : impl.Lawful) (h : List (SetOp K)) (cb : σ → K → SetProg K (σ × Bool)) (fuel : Nat) (t : σ) :
    EndsLikeSet impl (SLSet.forEachIfC impl fuel cb t (SCWorld.init.krun impl h).2)
      (SWalk.run impl.less fuel (fun t k => (cb t k).onMap) t (SCSpec.init.krun impl.less h).2) := by
  obtain ⟨h', e1, e2⟩ := ((Reached.init (impl := impl)).run hl h).2
  obtain ⟨ids, D, I⟩ := SCInv.after hl h'
  rw [e1, e2]
  exact (I.setForEachIf hl cb fuel t).endsLikeSet hl

/-- C145: the same for `ForEach`. -/
theorem C145_forEach (hl : impl.Lawful) (h : List (SetOp K)) (cb : σ → K → SetProg K σ) (fuel : Nat) (t : σ) :
    EndsLikeSet impl (SLSet.forEachC impl fuel cb t (SCWorld.init.krun impl h).2)
      (SWalk.run impl.less fuel (SetProg.goOn cb) t (SCSpec.init.krun impl.less h).2) := by
  rw [SLSet.forEachC_eq, ← SetProg.onMap_goOn]
  exact C145_forEachIf hl h _ fuel t

theorem SOk.afterSet (hl : impl.Lawful) (h : List (SetOp K)) : SOk impl.less (SCSpec.init.krun impl.less h).2 := by
  obtain ⟨h', _, e2⟩ := ((Reached.init (impl := impl)).run hl h).2
  rw [e2]
  exact SOk.after hl.weak h'

/-- C145: the keys the callback is called with are strictly ascending, whatever it does. -/
theorem C145_ascending (hl : impl.Lawful) (h : List (SetOp K)) (cb : σ → K → SetProg K (σ × Bool)) (fuel : Nat) (t t' : σ) (ks : List K)
    (w' : SCWorld K Unit) (hr : SLSet.forEachIfC impl fuel (SetProg.noting cb) (t, []) (SCWorld.init.krun impl h).2 = .ok (t', ks) w') :
    ks.Pairwise (fun a b => impl.less a b = true) := by
  have := C145_forEachIf hl h (SetProg.noting cb) fuel (t, [])
  rw [hr, SetProg.onMap_noting] at this
  cases hs : SWalk.run impl.less fuel (SProg.noting (fun t k => (cb t k).onMap)) (t, []) (SCSpec.init.krun impl.less h).2 with
  | ok r y =>
    rw [hs] at this
    obtain ⟨rfl, _⟩ := this
    exact SWalk.loop_ascending hl.weak _ fuel t [] (WOk.start (SOk.afterSet hl h)) List.Pairwise.nil (by simp) _ _ _ hs
  | panic => rw [hs] at this; exact this.elim
  | diverge => rw [hs] at this; exact this.elim

/-- C145: an element that is in the set before `ForEach` is visited, unless the callback removes it or clears the set. -/
theorem C145_visited (hl : impl.Lawful) (h : List (SetOp K)) (cb : σ → K → SetProg K σ) (q : K)
    (hcb : ∀ t k, (cb t k).Within true true (fun op => !op.removesKey impl.less q)) (fuel : Nat) (t t' : σ) (ks : List K) (w' : SCWorld K Unit)
    (hq : ((SCWorld.init.krun impl h).2.kstep impl (.set (.has q))).1 = .of (.flag true))
    (hr : SLSet.forEachC impl fuel (SetProg.notingAll cb) (t, []) (SCWorld.init.krun impl h).2 = .ok (t', ks) w') :
    ∃ k ∈ ks, sameKey impl.less q k = true := by
  have := C145_forEach hl h (SetProg.notingAll cb) fuel (t, [])
  rw [hr, SetProg.goOn_noting] at this
  obtain ⟨h', e1, e2⟩ := ((Reached.init (impl := impl)).run hl h).2
  rw [((Reached.init.run hl h).2.step hl _).1] at hq
  have hq' : (SMap.find impl.less q (SCSpec.init.krun impl.less h).2.map).isSome = true := by
    have e : ∀ s : SCSpec K Unit, (s.kstep impl.less (.set (.has q))).1 = .of (.flag (SMap.find impl.less q s.map).isSome) := fun s => rfl
    rw [e] at hq
    simpa using hq
  have ho := SOk.afterSet hl h
  have hb := SOk.before_new hl.weak ho (op := .iterate 0) (c := 0) (q := q) (by simp [SCOp.startsBefore]) hq'
  cases hs : SWalk.run impl.less fuel (SProg.noting (SProg.goOn (fun t k => (cb t k).onMap))) (t, []) (SCSpec.init.krun impl.less h).2 with
  | ok r y =>
    rw [hs] at this
    obtain ⟨rfl, _⟩ := this
    exact SWalk.loop_visited hl.weak _ (fun t k => SetProg.Within.onMap (fun op => op.within_keeps) _ (hcb t k)) fuel t [] (WOk.start ho) hq' hb _ _ _ hs
  | panic => rw [hs] at this; exact this.elim
  | diverge => rw [hs] at this; exact this.elim

/-- C145: `ForEachIf` ends after at most `Len` rounds if the callback inserts nothing and always returns or panics. -/
theorem C145_ends (hl : impl.Lawful) (h : List (SetOp K)) (cb : σ → K → SetProg K (σ × Bool))
    (hcb : ∀ t k, (cb t k).Within true false (fun op => !op.isInsert)) (fuel : Nat) (t : σ) (n : Int)
    (hn : ((SCWorld.init.krun impl h).2.kstep impl (.set .len)).1 = .of (.num n)) (hf : n < fuel) :
    SLSet.forEachIfC impl fuel cb t (SCWorld.init.krun impl h).2 ≠ .diverge := by
  intro hd
  have := C145_forEachIf hl h cb fuel t
  rw [hd] at this
  rw [((Reached.init.run hl h).2.step hl _).1] at hn
  have e : ∀ s : SCSpec K Unit, (s.kstep impl.less (.set .len)).1 = .of (.num s.map.length) := fun s => rfl
  rw [e] at hn
  injection hn with hn
  injection hn with hn
  have hf' : (SCSpec.init.krun impl.less h).2.map.length < fuel := by omega
  cases hs : SWalk.run impl.less fuel (fun t k => (cb t k).onMap) t (SCSpec.init.krun impl.less h).2 with
  | ok r y => rw [hs] at this; exact this.elim
  | panic => rw [hs] at this; exact this.elim
  | diverge =>
    exact SWalk.loop_ends hl.weak (fun t k => SetProg.Within.onMap (fun op => op.within_noInsert) _ (hcb t k)) fuel t
      (WOk.start (SOk.afterSet hl h)) (Nat.lt_of_le_of_lt (SCSpec.room_le rfl) hf') hs

/-- C145: `ForEachIf` panics only if the callback does, by itself or by using an iterator beyond its end. -/
theorem C145_panics (hl : impl.Lawful) (h : List (SetOp K)) (cb : σ → K → SetProg K (σ × Bool))
    (hcb : ∀ t k, (cb t k).Within false true SetOp.total) (fuel : Nat) (t : σ) :
    ∀ w', SLSet.forEachIfC impl fuel cb t (SCWorld.init.krun impl h).2 ≠ .panic w' := by
  intro w' hd
  have := C145_forEachIf hl h cb fuel t
  rw [hd] at this
  cases hs : SWalk.run impl.less fuel (fun t k => (cb t k).onMap) t (SCSpec.init.krun impl.less h).2 with
  | ok r y => rw [hs] at this; exact this.elim
  | panic =>
    exact SWalk.loop_noPanic hl.weak (fun t k => SetProg.Within.onMap (fun op => op.within_total) _ (hcb t k)) fuel t
      (WOk.start (SOk.afterSet hl h)) _ hs
  | diverge => rw [hs] at this; exact this.elim

/-! ## Examples -/

/-- Four elements; iterator 0 is on 5 and iterator 1 on 1, with 5 as its end. -/
def exSetWalk : List (SetOp Int) :=
  [.set (.insertN [(3, 1), (0, 5), (1, 9), (2, 5)]), .set (.insert 1 7), .lowerBound 0 4, .findRange 1 1 2]

/-- The element an iterator is on is removed: the iterator still shows it and goes on from there. At its end `Value` panics. The iterator of
`FindRange` misses its end when that has been removed before it gets there, and goes on to the end of the set. -/
example : (SCWorld.init.krun exImpl (exSetWalk ++ [.set .keys, .set (.remove 5), .value 0, .next 0, .value 0, .next 0, .next 0, .isNotEnd 0,
      .value 0, .value 1, .next 1, .isNotEnd 1, .value 1, .set (.removeN [7, 7, 9, 4]), .set .len])).1 =
    [.of (.num 3), .of (.flag true), .of .unit, .of .unit, .of (.list [1, 5, 7, 9]), .of (.flag true), .key 5, .of .unit, .key 7, .of .unit, .of .unit,
      .of (.flag false), .panicked, .key 1, .of .unit, .of (.flag true), .key 7, .of (.num 2), .of (.num 1)] := by
  decide +kernel

/-- On 1 the callback removes 1 and 5 and inserts 6 and 8; on others it does nothing. -/
def exSetBusy (t : List Int) (k : Int) : SetProg Int (List Int) :=
  if k = 1 then .call (.set (.removeN [5, 1])) (fun _ => .call (.set (.insertN [(1, 6), (0, 8)])) (fun _ => .ret (t ++ [k]))) else .ret (t ++ [k])

/-- The loop goes on from the removed 1 to 7, which followed it when it was removed. It misses 6, and visits 8. -/
example : (match SLSet.forEachC exImpl 9 exSetBusy [] (SCWorld.init.krun exImpl exSetWalk).2 with
    | .ok t w => some (t, (w.krun exImpl [.set .keys, .value 0]).1)
    | _ => none) = some (([1, 7, 8, 9], [.of (.list [6, 7, 8, 9]), .key 5]) : List Int × List (SetObs Int)) := by
  decide +kernel

/-- The hypotheses of `C145_visited` and `C145_panics`. -/
example : (∀ t k, (exSetBusy t k).Within false true (fun op => !op.removesKey exImpl.less 9 && op.total)) ∧
    ((SCWorld.init.krun exImpl exSetWalk).2.kstep exImpl (.set (.has 9))).1 = .of (.flag true) := by
  refine ⟨fun t k => ?_, by decide +kernel⟩
  by_cases hk : k = 1
  · simp only [exSetBusy, hk, if_true, SetProg.Within]
    exact ⟨by decide +kernel, fun _ => ⟨by decide +kernel, fun _ => trivial⟩⟩
  · simp only [exSetBusy, hk, if_false, SetProg.Within]

/-- The hypotheses of `C145_ends`: `ForEachIf` that removes each element it visits. -/
example : (∀ (t : Nat) (k : Int), (SetProg.call (.set (.remove k)) (fun _ => .ret (t + 1, true))).Within true false (fun op => !op.isInsert)) ∧
    (match SLSet.forEachIfC exImpl 5 (fun t k => SetProg.call (.set (.remove k)) (fun _ => .ret (t + 1, true))) 0 (SCWorld.init.krun exImpl exSetWalk).2 with
    | .ok t w => some (t, (w.krun exImpl [.set .keys]).1)
    | _ => none) = some ((4, [.of (.list [])]) : Nat × List (SetObs Int)) :=
  ⟨fun _ _ => ⟨rfl, fun _ => trivial⟩, by decide +kernel⟩

end Stl4go
