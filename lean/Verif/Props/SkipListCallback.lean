import Verif.Proofs.SkipListWalk
import Verif.Props.SkipList
/-!
# Properties C125 and C126: the `ForEach` methods of `/repo/skiplist.go` with callbacks that use the list

The callback is any program over the methods of the list it is called from, any number of iterators and any number of pointers to values
(`SProg`); the history before the call is any history.
-/
namespace Stl4go
variable {K V σ : Type} {impl : SLImpl K}

/-- Whatever the client does next, it sees what this state of the specification shows. -/
def SCWorld.Shows (impl : SLImpl K) (w : SCWorld K V) (s : SCSpec K V) : Prop := ∀ ops, (w.run impl ops).1 = (s.run impl.less ops).1

/-- The call ended like the specification, and whatever the client does next it sees the state the specification gives. -/
def EndsLikeS {α : Type} (impl : SLImpl K) : Res (SCWorld K V) α → Res (SWalk K V) α → Prop
  | .ok a w, .ok b x => a = b ∧ w.Shows impl x.spec
  | .panic w, .panic x => w.Shows impl x.spec
  | .diverge, .diverge => True
  | _, _ => False

theorem HoldsS.shows (hl : impl.Lawful) {w : SCWorld K V} {x : SWalk K V} (h : HoldsS impl w x) : w.Shows impl x.spec := by
  obtain ⟨ids, D, I⟩ := h
  exact fun ops => (I.run hl ops).1

theorem FitsS.endsLike {α : Type} (hl : impl.Lawful) {r : Res (SCWorld K V) α} {r' : Res (SWalk K V) α}
    (h : FitsS (HoldsS impl) (HoldsS impl) r r') : EndsLikeS impl r r' := by
  cases r <;> cases r' <;> first | exact h.elim | trivial | exact ⟨h.1, h.2.shows hl⟩ | exact HoldsS.shows hl h

/-! ## C125: the four methods -/

/-- C125: `ForEachMutableIf` with a callback that does anything with the list, iterators and pointers. -/
theorem C125_forEachMutableIf (hl : impl.Lawful) (h : List (SCOp K V)) (cb : σ → K → SProg K V (σ × Bool)) (fuel : Nat) (t : σ) :
    EndsLikeS impl (SL.forEachMutableIfC impl fuel cb t (SCWorld.init.run impl h).2)
      (SWalk.run impl.less fuel cb t (SCSpec.init.run impl.less h).2) := by
  obtain ⟨ids, D, I⟩ := SCInv.after hl h
  exact (I.forEachMutableIfC hl cb fuel t).endsLike hl

/-- C125: the same for `ForEachMutable`. -/
theorem C125_forEachMutable (hl : impl.Lawful) (h : List (SCOp K V)) (cb : σ → K → SProg K V σ) (fuel : Nat) (t : σ) :
    EndsLikeS impl (SL.forEachMutableC impl fuel cb t (SCWorld.init.run impl h).2)
      (SWalk.run impl.less fuel (SProg.goOn cb) t (SCSpec.init.run impl.less h).2) := by
  have e : SL.forEachMutableC impl fuel cb t = SL.forEachMutableIfC impl fuel (SProg.goOn cb) t := by
    simp only [SL.forEachMutableC, SL.forEachMutableIfC, SL.forEachMutableLoopC_eq]
  rw [e]
  exact C125_forEachMutableIf hl h _ fuel t

/-- C125: the same for `ForEachIf`. -/
theorem C125_forEachIf (hl : impl.Lawful) (h : List (SCOp K V)) (cb : σ → K → V → SProg K V (σ × Bool)) (fuel : Nat) (t : σ) :
    EndsLikeS impl (SL.forEachIfC impl fuel cb t (SCWorld.init.run impl h).2)
      (SWalk.run impl.less fuel (SProg.byValue cb) t (SCSpec.init.run impl.less h).2) := by
  have e : SL.forEachIfC impl fuel cb t = SL.forEachMutableIfC impl fuel (SProg.byValue cb) t := by
    simp only [SL.forEachIfC, SL.forEachMutableIfC, SL.forEachIfLoopC_eq]
  rw [e]
  exact C125_forEachMutableIf hl h _ fuel t

/-- C125: the same for `ForEach`. -/
theorem C125_forEach (hl : impl.Lawful) (h : List (SCOp K V)) (cb : σ → K → V → SProg K V σ) (fuel : Nat) (t : σ) :
    EndsLikeS impl (SL.forEachC impl fuel cb t (SCWorld.init.run impl h).2)
      (SWalk.run impl.less fuel (SProg.goOn (SProg.byValue cb)) t (SCSpec.init.run impl.less h).2) := by
  have e : SL.forEachC impl fuel cb t = SL.forEachMutableC impl fuel (SProg.byValue cb) t := by
    simp only [SL.forEachC, SL.forEachMutableC, SL.forEachLoopC_eq]
  rw [e]
  exact C125_forEachMutable hl h _ fuel t

/-- Three entries; iterator 0 is on the second and pointer 0 points to its value. -/
def exWalk : List (SCOp Int Int) :=
  [.map 3 (.insert 1 10), .map 0 (.insert 5 50), .map 1 (.insert 9 90), .lowerBound 0 5, .find 0 5]

/-- A callback that, on key 1, removes key 1 and key 5, writes through pointer 0 and through its own pointer, keeps that in pointer 1 and
inserts 7; on the other keys it does nothing. -/
def exBusy (t : List (Int × Int)) (k : Int) : SProg Int Int (List (Int × Int)) :=
  .load (fun v =>
    if k = 1 then .call (.map 0 (.remove 1)) (fun _ => .call (.map 0 (.remove 5)) (fun _ => .call (.write 0 51) (fun _ =>
      .store 11 (.save 1 (.call (.map 2 (.insert 7 70)) (fun _ => .ret (t ++ [(k, v)])))))))
    else .ret (t ++ [(k, v)]))

/-- The loop goes from the removed key 1 to the removed key 5 (1 was removed while 5 followed it), then to 9, past the new key 7. The pointers
and the iterator still reach the removed entries. -/
example : (match SL.forEachMutableC exImpl 9 exBusy [] (SCWorld.init.run exImpl exWalk).2 with
    | .ok t w => some (t, (w.run exImpl [.map 0 .iterate, .read 0, .read 1, .key 0]).1)
    | _ => none) = some (([(1, 10), (5, 51), (9, 90)], [.of (.entries [(7, 70), (9, 90)]), .of (.val (some 51)), .of (.val (some 11)), .key 5]) :
      List (Int × Int) × List (SCObs Int Int)) := by
  decide +kernel

/-! ## C126: which entries are visited, and when the loop ends -/

theorem SOk.after (hw : StrictWeak impl.less) (h : List (SCOp K V)) : SOk impl.less (SCSpec.init.run impl.less h).2 :=
  (SOk.run hw 0 h SOk.init).1

/-- C126: the keys the callback is called with are strictly ascending, whatever the callback does. -/
theorem C126_ascending (hl : impl.Lawful) (h : List (SCOp K V)) (cb : σ → K → SProg K V (σ × Bool)) (fuel : Nat) (t t' : σ) (ks : List K)
    (w' : SCWorld K V) (hr : SL.forEachMutableIfC impl fuel (SProg.noting cb) (t, []) (SCWorld.init.run impl h).2 = .ok (t', ks) w') :
    ks.Pairwise (fun a b => impl.less a b = true) := by
  have := C125_forEachMutableIf hl h (SProg.noting cb) fuel (t, [])
  rw [hr] at this
  cases hs : SWalk.run impl.less fuel (SProg.noting cb) (t, []) (SCSpec.init.run impl.less h).2 with
  | ok r y =>
    rw [hs] at this
    obtain ⟨rfl, _⟩ := this
    exact SWalk.loop_ascending hl.weak cb fuel t [] (WOk.start (SOk.after hl.weak h)) List.Pairwise.nil (by simp) _ _ _ hs
  | panic => rw [hs] at this; exact this.elim
  | diverge => rw [hs] at this; exact this.elim

/-- C126: an entry that is in the map before the call is visited, unless the callback removes it or clears the map. -/
theorem C126_visited (hl : impl.Lawful) (h : List (SCOp K V)) (cb : σ → K → SProg K V σ) (q : K)
    (hcb : ∀ t k, (cb t k).Within true true (fun op => !op.removesKey impl.less q)) (fuel : Nat) (t t' : σ) (ks : List K) (w' : SCWorld K V)
    (hq : ((SCWorld.init.run impl h).2.step impl (.map 0 (.has q))).1 = .of (.flag true))
    (hr : SL.forEachMutableIfC impl fuel (SProg.noting (SProg.goOn cb)) (t, []) (SCWorld.init.run impl h).2 = .ok (t', ks) w') :
    ∃ k ∈ ks, sameKey impl.less q k = true := by
  have := C125_forEachMutableIf hl h (SProg.noting (SProg.goOn cb)) fuel (t, [])
  rw [hr] at this
  obtain ⟨ids, D, I⟩ := SCInv.after hl h
  have ho := SOk.after hl.weak h
  rw [(I.step hl (.map 0 (.has q))).1] at hq
  have hq' : (SMap.find impl.less q (SCSpec.init.run impl.less h).2.map).isSome = true := by
    simpa [SCSpec.step, SMap.step] using hq
  have hb := SOk.before_new hl.weak ho (op := .iterate 0) (c := 0) (q := q) (by simp [SCOp.startsBefore]) hq'
  cases hs : SWalk.run impl.less fuel (SProg.noting (SProg.goOn cb)) (t, []) (SCSpec.init.run impl.less h).2 with
  | ok r y =>
    rw [hs] at this
    obtain ⟨rfl, _⟩ := this
    exact SWalk.loop_visited hl.weak cb hcb fuel t [] (WOk.start ho) hq' hb _ _ _ hs
  | panic => rw [hs] at this; exact this.elim
  | diverge => rw [hs] at this; exact this.elim

/-- C126: the call ends if the callback inserts nothing and always returns or panics. -/
theorem C126_ends (hl : impl.Lawful) (h : List (SCOp K V)) (cb : σ → K → SProg K V (σ × Bool))
    (hcb : ∀ t k, (cb t k).Within true false (fun op => !op.isInsert)) (fuel : Nat) (t : σ)
    (hf : (SCSpec.init.run impl.less h).2.map.length < fuel) :
    SL.forEachMutableIfC impl fuel cb t (SCWorld.init.run impl h).2 ≠ .diverge := by
  intro hd
  have := C125_forEachMutableIf hl h cb fuel t
  rw [hd] at this
  cases hs : SWalk.run impl.less fuel cb t (SCSpec.init.run impl.less h).2 with
  | ok r y => rw [hs] at this; exact this.elim
  | panic => rw [hs] at this; exact this.elim
  | diverge => exact SWalk.loop_ends hl.weak hcb fuel t (WOk.start (SOk.after hl.weak h)) (Nat.lt_of_le_of_lt (SCSpec.room_le rfl) hf) hs

/-- C126: the call panics only if the callback does. -/
theorem C126_panics (hl : impl.Lawful) (h : List (SCOp K V)) (cb : σ → K → SProg K V (σ × Bool))
    (hcb : ∀ t k, (cb t k).Within false true SCOp.total) (fuel : Nat) (t : σ) :
    ∀ w', SL.forEachMutableIfC impl fuel cb t (SCWorld.init.run impl h).2 ≠ .panic w' := by
  intro w' hd
  have := C125_forEachMutableIf hl h cb fuel t
  rw [hd] at this
  cases hs : SWalk.run impl.less fuel cb t (SCSpec.init.run impl.less h).2 with
  | ok r y => rw [hs] at this; exact this.elim
  | panic => exact SWalk.loop_noPanic hl.weak hcb fuel t (WOk.start (SOk.after hl.weak h)) _ hs
  | diverge => rw [hs] at this; exact this.elim

/-- C126: clearing the map in `ForEach` does not stop it: it visits all entries, and the map is empty afterwards. -/
theorem C126_clearing (hl : impl.Lawful) (h : List (SCOp K V)) (fuel : Nat) :
    let m := (SCSpec.init.run impl.less h).2.map
    m.length < fuel →
    ∃ w', SL.forEachC impl fuel (fun t k v => .call (.map 0 .clear) (fun _ => .ret (t ++ [(k, v)]))) [] (SCWorld.init.run impl h).2 = .ok m w' ∧
      (w'.step impl (.map 0 .iterate)).1 = .of (.entries []) := by
  intro m hf
  have key : EndsLikeS impl (SL.forEachC impl fuel SProg.clearing [] (SCWorld.init.run impl h).2) _ := C125_forEach hl h SProg.clearing fuel []
  obtain ⟨y, e1, e2⟩ := SWalk.run_clearing hl.weak (SOk.after hl.weak h) fuel hf
  rw [e1] at key
  show ∃ w', SL.forEachC impl fuel SProg.clearing [] (SCWorld.init.run impl h).2 = .ok m w' ∧ _
  cases hs : SL.forEachC impl fuel SProg.clearing [] (SCWorld.init.run impl h).2 with
  | ok r w' =>
    rw [hs] at key
    obtain ⟨rfl, k2⟩ := key
    refine ⟨w', rfl, ?_⟩
    have := k2 [.map 0 .iterate]
    simpa [SCWorld.run, SCSpec.run, SCSpec.step, SMap.step, e2] using this
  | panic => rw [hs] at key; exact key.elim
  | diverge => rw [hs] at key; exact key.elim

/-- C126: a callback of `ForEach` that inserts a greater key each time makes the loop endless, unless the map is empty. -/
theorem C126_endless (hl : impl.Lawful) (h : List (SCOp K V)) (f : K → K) (hf : ∀ k, impl.less k (f k) = true)
    (hne : (SCSpec.init.run impl.less h).2.map ≠ []) (fuel : Nat) (t : σ) :
    SL.forEachC impl fuel (fun t k v => .call (.map 0 (.insert (f k) v)) (fun _ => .ret t)) t (SCWorld.init.run impl h).2 = .diverge := by
  have key : EndsLikeS impl (SL.forEachC impl fuel (SProg.insertNext f) t (SCWorld.init.run impl h).2) _ :=
    C125_forEach hl h (SProg.insertNext f) fuel t
  rw [SWalk.run, SWalk.loop_insertNext hl.weak f hf fuel t (WOk.start (SOk.after hl.weak h)) (by
    cases hm : (SCSpec.init.run impl.less h).2.map with
    | nil => exact absurd hm hne
    | cons e m => simp [SWalk.ahead, SCSpec.ahead]) rfl] at key
  show SL.forEachC impl fuel (SProg.insertNext f) t (SCWorld.init.run impl h).2 = .diverge
  cases hs : SL.forEachC impl fuel (SProg.insertNext f) t (SCWorld.init.run impl h).2 with
  | ok => rw [hs] at key; exact key.elim
  | panic => rw [hs] at key; exact key.elim
  | diverge => rfl

/-- The hypotheses of C126: a map with three entries, keys without a greatest one. -/
example : ((SCSpec.init.run exImpl.less exWalk).2.map.map (·.1), exImpl.less 5 (5 + 1)) = ([1, 5, 9], true) := by decide +kernel

/-- `exBusy` does not remove key 9, and 9 is visited; it does remove 5. -/
example : ∀ t k, (exBusy t k).Within true true (fun op => !op.removesKey exImpl.less 9) := by
  intro t k v
  by_cases hk : k = 1
  · simp only [hk, if_true, SProg.Within]
    exact ⟨by decide, fun _ => ⟨by decide, fun _ => ⟨by decide, fun _ => ⟨by decide, fun _ => trivial⟩⟩⟩⟩
  · simp only [hk, if_false, SProg.Within]

/-- A loop whose callback inserts a smaller key each time ends. -/
example : (match SL.forEachC exImpl 9 (fun t k v => .call (.map 0 (.insert (k - 1) v)) (fun _ => .ret (t ++ [k]))) []
      (SCWorld.init.run exImpl exWalk).2 with
    | .ok t w => some (t, (w.run exImpl [.map 0 .len]).1)
    | _ => none) = some (([1, 5, 9], [.of (.num 6)]) : List Int × List (SCObs Int Int)) := by
  decide +kernel

end Stl4go
