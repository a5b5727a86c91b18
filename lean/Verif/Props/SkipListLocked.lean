import Verif.Proofs.SkipListLockedMap
import Verif.Props.SkipList
/-!
# Property C181: a skip list behind a lock, and without one

Goroutines make calls on one skip list, now with `Insert`, `Remove` and `Clear` among them. `Steps` is a call access by access. If the client guards every call with a `sync.RWMutex`, for reading around the calls that only look,
the calls have the effect of being made one after another, in the order in which they release the lock. Without it calls that overlap lose entries, count wrong or panic.
The theorems before `C181_alone` are about any memory and any calls.
-/
namespace Stl4go
variable {K V σ α : Type}

/-- C181, one after another: whatever the schedule, the calls that are over have the outcomes that they would have one after another, each as a whole, in the order in which they released the lock. While no goroutine holds the
lock for writing, the memory is as those calls leave it. Calls made with the lock for reading must not write. -/
theorem C181_serial (calls : Nat → List (LockedCall σ α)) (s : σ) (hr : ∀ i, ∀ c ∈ calls i, c.write = false → c.body.Reads) (schedule : List Nat) :
    ∃ s', Serially s (((LockedState.start calls s).exec schedule).log.map (·.2)) s' ∧
      (((LockedState.start calls s).exec schedule).writer = none → ((LockedState.start calls s).exec schedule).mem = s') := by
  obtain ⟨s', h⟩ := (LockedInv.init calls s).exec hr schedule
  exact ⟨s', h.serial, h.quiet⟩

/-- C181, order: every goroutine makes its calls in its own order: those over, then the one it is in, then those to come. And a call that is over when another begins comes before it: the log only grows at its end. -/
theorem C181_order (calls : Nat → List (LockedCall σ α)) (s : σ) (hr : ∀ i, ∀ c ∈ calls i, c.write = false → c.body.Reads) (schedule : List Nat) :
    (∀ i, ((LockedState.start calls s).exec schedule).completed i ++ (((LockedState.start calls s).exec schedule).inside i).toList ++ (((LockedState.start calls s).exec schedule).threads i).todo = calls i) ∧
    ∀ more, ((LockedState.start calls s).exec schedule).log <+: ((LockedState.start calls s).exec (schedule ++ more)).log := by
  obtain ⟨s', h⟩ := (LockedInv.init calls s).exec hr schedule
  refine ⟨h.order, fun more => ?_⟩
  rw [LockedState.exec_append]
  exact LockedState.log_grows _ more

/-- C181, exclusion: while a goroutine is in a call for writing, no other is in a call. -/
theorem C181_exclusive (calls : Nat → List (LockedCall σ α)) (s : σ) (hr : ∀ i, ∀ c ∈ calls i, c.write = false → c.body.Reads) (schedule : List Nat) {i j : Nat} {c d : LockedCall σ α}
    (hi : ((LockedState.start calls s).exec schedule).inside i = some c) (hj : ((LockedState.start calls s).exec schedule).inside j = some d) (hc : c.write = true) : i = j := by
  obtain ⟨s', h⟩ := (LockedInv.init calls s).exec hr schedule
  obtain ⟨x, hx, rfl⟩ := Option.map_eq_some_iff.1 hi
  obtain ⟨y, hy, rfl⟩ := Option.map_eq_some_iff.1 hj
  obtain ⟨a, _⟩ := h.wr i x.1 x.2 hx hc
  cases hd : y.1.write with
  | true => have := (h.wr j y.1 y.2 hy hd).1; rw [a] at this; injection this
  | false => have := (h.rd j y.1 y.2 hy hd).1; rw [(h.held i a).1] at this; exact nomatch this

/-- C181, progress: finitely many goroutines, whose calls return or panic (from the states `J` that they lead to), are never stuck: from every state that a schedule leads to, they can all finish. -/
theorem C181_finish (calls : Nat → List (LockedCall σ α)) (s : σ) (hr : ∀ i, ∀ c ∈ calls i, c.write = false → c.body.Reads) (n : Nat) (hn : ∀ i, n ≤ i → calls i = [])
    (J : σ → Prop) (h0 : J s) (hJ : ∀ i, ∀ c ∈ calls i, ∀ s, J s → (c.body.run s).Ends J) (schedule : List Nat) :
    ∃ more, ((LockedState.start calls s).exec (schedule ++ more)).finished := by
  obtain ⟨s1, h1⟩ := (LockedInv.init calls s).exec hr schedule
  generalize hst : (LockedState.start calls s).exec schedule = st at h1
  have out : ∀ st' s', LockedInv calls s st' s' → ∀ i, n ≤ i → st'.threads i = ⟨[], none⟩ := fun st' s' h' i hi => by
    have := h'.order i
    rw [hn i hi] at this
    simp only [List.append_eq_nil_iff] at this
    obtain ⟨⟨_, b⟩, c⟩ := this
    cases hx : st'.threads i with
    | mk t nw =>
      rw [LockedState.inside, hx] at b
      rw [hx] at c
      cases nw with
      | none => simp only at c; rw [c]
      | some x => exact nomatch b
  obtain ⟨k1, a1, _⟩ := LockedInv.leave hr hJ h0 (List.range n) st s1 h1
  obtain ⟨s2, h2⟩ := h1.exec hr k1
  have quiet : ∀ j, ((st.exec k1).threads j).now = none := fun j => by
    by_cases hj : j < n
    · exact a1 j (List.mem_range.2 hj)
    · rw [out _ _ h2 j (by omega)]
  obtain ⟨k2, b1, b2, _⟩ := LockedInv.rest hr hJ h0 (List.range n) _ s2 h2 quiet
  refine ⟨k1 ++ k2, fun i => ?_⟩
  rw [LockedState.exec_append, hst, LockedState.exec_append]
  have : ((st.exec k1).exec k2).threads i = ⟨[], none⟩ := by
    by_cases hi : i < n
    · exact b1 i (List.mem_range.2 hi)
    · exact b2 i (out _ _ h2 i (by omega))
  rw [this]
  exact ⟨rfl, rfl⟩

/-! ## The skip list -/

/-- C181, alone: the accesses of a call, made while no other goroutine does anything, do what the call does: the same result, the same list, or the same panic. This holds for every list and every compare function. -/
theorem C181_alone (impl : SLImpl K) (c : LKCall K V) (sl : SL K V) : ((c.body impl).run sl).pair = c.call impl sl := c.run_body impl sl

/-- C181, maps: any number of goroutines make calls on a list that a history has built, with a lawful order, each call behind the lock. There is an order of the calls that are over, in which every goroutine's calls are in its own
order, such that the results are those of a finite map on which these calls are made in that order. No call panics. While nobody writes, the list behaves as that map. -/
theorem C181_map {impl : SLImpl K} (hl : impl.Lawful) {h : List (Nat × SMOp K V)} {sl : SL K V} (hb : SL.Built impl h sl) (calls : Nat → List (LKCall K V)) (schedule : List Nat) :
    ∃ order : List (Nat × LKCall K V), (∀ i, (order.filter (fun e => e.1 = i)).map (·.2) <+: calls i) ∧
      ((LockedState.start (fun i => (calls i).map (·.locked impl)) sl).exec schedule).log.map (fun e => (e.1, e.2.1)) = order.map (fun e => (e.1, e.2.locked impl)) ∧
      ((LockedState.start (fun i => (calls i).map (·.locked impl)) sl).exec schedule).log.map (fun e => e.2.2) = (LKCall.results impl.less (SMap.after impl.less h) (order.map (·.2))).map .ret ∧
      (((LockedState.start (fun i => (calls i).map (·.locked impl)) sl).exec schedule).writer = none →
        ((LockedState.start (fun i => (calls i).map (·.locked impl)) sl).exec schedule).mem.Behaves impl (LKCall.after impl.less (SMap.after impl.less h) (order.map (·.2)))) := by
  obtain ⟨ids, hi⟩ := hb.inv hl
  have hr : ∀ i, ∀ c ∈ (calls i).map (·.locked impl), c.write = false → c.body.Reads := fun i c hc hw => by
    obtain ⟨d, _, rfl⟩ := List.mem_map.1 hc
    exact d.reads impl hw
  obtain ⟨s', hI⟩ := (LockedInv.init (fun i => (calls i).map (·.locked impl)) sl).exec hr schedule
  generalize (LockedState.start (fun i => (calls i).map (·.locked impl)) sl).exec schedule = st at hI
  obtain ⟨order, o1, o2⟩ := order_of_log (·.locked impl) calls _ (st.log.map (fun e => (e.1, e.2.1))) rfl (fun i => by
    have := hI.order i
    rw [← this, List.append_assoc, LockedState.completed, List.filter_map, List.map_map]
    exact List.prefix_append _ _)
  obtain ⟨r1, ids', r2⟩ := serially_spec hl (order.map (·.2)) hi (by
    have := congrArg (List.map (·.2)) o1
    simp only [List.map_map] at this ⊢
    exact this.symm) hI.serial
  refine ⟨order, o2, o1.symm, ?_, fun hq => ?_⟩
  · rw [← r1, List.map_map]; rfl
  · rw [hI.quiet hq]; exact r2.behaves hl

/-- C181, all finish: finitely many such goroutines are never stuck. -/
theorem C181_map_finish {impl : SLImpl K} (hl : impl.Lawful) {h : List (Nat × SMOp K V)} {sl : SL K V} (hb : SL.Built impl h sl) (calls : Nat → List (LKCall K V)) (n : Nat) (hn : ∀ i, n ≤ i → calls i = [])
    (schedule : List Nat) : ∃ more, ((LockedState.start (fun i => (calls i).map (·.locked impl)) sl).exec (schedule ++ more)).finished := by
  obtain ⟨ids, hi⟩ := hb.inv hl
  refine C181_finish _ sl (fun i c hc hw => ?_) n (fun i hi => by rw [hn i hi]; rfl) (fun s => ∃ ids m, SLInv impl.less s ids m) ⟨ids, _, hi⟩ (fun i c hc s hs => ?_) schedule
  · obtain ⟨d, _, rfl⟩ := List.mem_map.1 hc
    exact d.reads impl hw
  · obtain ⟨d, _, rfl⟩ := List.mem_map.1 hc
    obtain ⟨ids, m, hs⟩ := hs
    obtain ⟨s', ids', a, b⟩ := d.body_spec hl hs
    show ((d.body impl).run s).Ends _
    rw [a]
    exact ⟨ids', _, b⟩

/-! ## Without the lock -/

/-- Goroutine 0 makes call `a`, goroutine 1 makes call `b`. -/
def exPair (a b : LKCall Int Int) (i : Nat) : Steps (SL Int Int) (SGRet Int Int) := if i = 0 then a.body exImpl else b.body exImpl

/-- What has become of them, what `Len` then says, and the entries that an iteration yields. -/
def exAfterwards (ts : Nat → Steps (SL Int Int) (SGRet Int Int)) (sl : SL Int Int) (schedule : List Nat) :
    Outcome (List (Option (Outcome (SGRet Int Int))) × Int × List (Int × Int)) := do
  let e := Steps.interleave ts sl schedule
  let l ← e.2.iterate >>= e.2.observeIter
  return ([(e.1 0).ended, (e.1 1).ended], e.2.length, l)

/-- C181, a lost entry: two goroutines insert different keys into an empty list. Both `Insert`s return, `Len` is 2, and one of the keys is not there. -/
theorem C181_lost_entry : ∃ schedule, exAfterwards (exPair (.insert (2 ^ 40 - 1) 1 10) (.insert (2 ^ 40 - 1) 2 20)) newSkipList schedule =
    .ret ([some (.ret .unit), some (.ret .unit)], 2, [(1, 10)]) :=
  ⟨List.replicate 10 0 ++ List.replicate 60 1 ++ List.replicate 60 0, by decide +kernel⟩

/-- C181, a wrong count: both keys are there, and `Len` is 1. -/
theorem C181_lost_count : ∃ schedule, exAfterwards (exPair (.insert (2 ^ 40 - 1) 1 10) (.insert (2 ^ 40 - 1) 2 20)) newSkipList schedule =
    .ret ([some (.ret .unit), some (.ret .unit)], 1, [(1, 10), (2, 20)]) :=
  ⟨List.replicate 16 0 ++ List.replicate 60 1 ++ List.replicate 60 0, by decide +kernel⟩

/-- C181, a panic: an `Insert` panics because another has raised the level of the list meanwhile. -/
theorem C181_panic : ∃ schedule, exAfterwards (exPair (.insert 0 1 10) (.insert 0 2 20)) newSkipList schedule =
    .ret ([some .panic, some (.ret .unit)], 1, [(1, 10), (2, 20)]) :=
  ⟨List.replicate 10 0 ++ List.replicate 90 1 ++ List.replicate 90 0, by decide +kernel⟩

/-- C181, removed twice: two goroutines remove the only key. Both are told that they have removed it, and `Len` is -1. -/
theorem C181_removed_twice : ∃ sl : SL Int Int, SL.Built exImpl [(2 ^ 40 - 1, .insert 1 10)] sl ∧ ∃ schedule, exAfterwards (exPair (.remove 1) (.remove 1)) sl schedule =
    .ret ([some (.ret (.flag true)), some (.ret (.flag true))], -1, []) := by
  refine ⟨(match (newSkipList : SL Int Int).insert exImpl (2 ^ 40 - 1) 1 10 with | .ret s => s | _ => newSkipList), ⟨[.unit], by decide +kernel⟩,
    List.replicate 10 0 ++ List.replicate 90 1 ++ List.replicate 90 0, by decide +kernel⟩

/-! ## Examples -/

/-- Three goroutines with the lock: one inserts 5 and 7, one removes 5 and counts, one looks for 5 and lists all. -/
def exGuarded : Nat → List (LKCall Int Int)
  | 0 => [.insert (2 ^ 40 - 1) 5 50, .insert (2 ^ 39) 7 70]
  | 1 => [.remove 5, .other .len]
  | 2 => [.other (.find 5), .other .forEach]
  | _ => []

/-- They take turns; what is logged is which goroutine, whether it wrote, and what it got. -/
example : (let st := (LockedState.start (fun i => (exGuarded i).map (·.locked exImpl)) newSkipList).exec ((List.range 120).flatMap (fun _ => [2, 0, 1]))
           (st.log.map (fun e => (e.1, e.2.1.write, e.2.2)), st.mem.len)) =
    ([(2, false, .ret (.val none)), (0, true, .ret .unit), (1, true, .ret (.flag true)), (2, false, .ret (.entries [])), (1, false, .ret (.num 0)), (0, true, .ret .unit)], 1) := by
  decide +kernel

end Stl4go
