import Verif.Proofs.Guarded
import Verif.Props.SkipListLocked
import Verif.Props.DListQueue
import Verif.Props.Stack
/-!
# Property C183: containers behind a lock; queues and stacks without one

What C181 says of a skip list holds of every container: if a client guards every call with a `sync.RWMutex`, goroutines see what one goroutine would see that makes the calls in the order in which they release the lock.
Here the calls of `DListQueue` and `Stack` are split into accesses, and their results are those of a sequence. A queue behind a lock hands values over from producers to consumers. Without the lock elements are lost or
handed out twice. Calls that only look need no lock if nobody changes the container.
-/
namespace Stl4go
variable {T σ α ω Op : Type}

/-- C183, any container: let `step` say what the operations of a container do, and let the calls, run alone, do that, however they are split into accesses. Then, whatever the schedule, there is an order of the operations that are
over, in which those of each goroutine are in its own order, such that the observations and the memory are those of the operations one after another in that order. -/
theorem C183_guarded {see : Outcome α → ω} {step : σ → Op → ω × σ} {call : Op → LockedCall σ α} (hg : Guards see step call) (hr : ∀ op, (call op).write = false → (call op).body.Reads)
    (ops : Nat → List Op) (s : σ) (schedule : List Nat) :
    ∃ order : List (Nat × Op), Ordered see call ops ((LockedState.start (fun i => (ops i).map call) s).exec schedule) order (runOps step s (order.map (·.2))).1 (runOps step s (order.map (·.2))).2 := by
  have hr' : ∀ i, ∀ c ∈ (ops i).map call, c.write = false → c.body.Reads := fun i c hc hw => by
    obtain ⟨d, _, rfl⟩ := List.mem_map.1 hc
    exact hr d hw
  obtain ⟨s', hI⟩ := (LockedInv.init (fun i => (ops i).map call) s).exec hr' schedule
  generalize (LockedState.start (fun i => (ops i).map call) s).exec schedule = st at hI
  obtain ⟨order, o1, o2⟩ := order_of_log call ops _ (st.log.map (fun e => (e.1, e.2.1))) rfl (fun i => by
    have := hI.order i
    rw [← this, List.append_assoc, LockedState.completed, List.filter_map, List.map_map]
    exact List.prefix_append _ _)
  obtain ⟨r1, r2⟩ := hI.serial.ops hg (order.map (·.2)) (by
    have := congrArg (List.map (·.2)) o1
    simp only [List.map_map] at this ⊢
    exact this.symm)
  refine ⟨order, o2, o1.symm, ?_, fun hq => ?_⟩
  · rw [← r1, List.map_map]; rfl
  · rw [hI.quiet hq, r2]

/-- C183, all finish: finitely many goroutines are never stuck behind the lock, if no operation of the container runs forever from a state that operations lead to. Calls that panic release the lock. -/
theorem C183_finish {see : Outcome α → ω} {step : σ → Op → ω × σ} {call : Op → LockedCall σ α} (hg : Guards see step call) (hr : ∀ op, (call op).write = false → (call op).body.Reads)
    (ops : Nat → List Op) (s : σ) (n : Nat) (hn : ∀ i, n ≤ i → ops i = []) (hd : ∀ h op, (step (runOps step s h).2 op).1 ≠ see .diverge) (schedule : List Nat) :
    ∃ more, ((LockedState.start (fun i => (ops i).map call) s).exec (schedule ++ more)).finished := by
  refine C181_finish _ s (fun i c hc hw => ?_) n (fun i hi => by rw [hn i hi]; rfl) (fun s1 => ∃ h, s1 = (runOps step s h).2) ⟨[], rfl⟩ (fun i c hc s1 hs => ?_) schedule
  · obtain ⟨d, _, rfl⟩ := List.mem_map.1 hc
    exact hr d hw
  · obtain ⟨d, _, rfl⟩ := List.mem_map.1 hc
    obtain ⟨h, rfl⟩ := hs
    have hs := hg d (runOps step s h).2
    have next : (runOps step s (h ++ [d])).2 = (step (runOps step s h).2 d).2 := (runOps_append step h [d] s).2
    cases e : (call d).body.run (runOps step s h).2 with
    | ok a s2 => rw [e] at hs; exact ⟨h ++ [d], by rw [next]; exact (congrArg (·.2) hs).symm⟩
    | panic s2 => rw [e] at hs; exact ⟨h ++ [d], by rw [next]; exact (congrArg (·.2) hs).symm⟩
    | diverge => rw [e] at hs; exact absurd hs (hd h d)

/-- C183, readers: goroutines that make calls that only look need no lock. In every interleaving the memory stays as it is, and a call that has ended has the outcome that it has alone. -/
theorem C183_readers (ts : Nat → Steps σ α) (s : σ) (hr : ∀ i, (ts i).Reads) (schedule : List Nat) :
    (Steps.interleave ts s schedule).2 = s ∧ ∀ i o, ((Steps.interleave ts s schedule).1 i).ended = some o → ((ts i).run s).outcome = o := by
  obtain ⟨a, b⟩ := Steps.interleave_reads schedule ts s hr
  refine ⟨a, fun i o h => ?_⟩
  rw [← b i]
  cases e : (Steps.interleave ts s schedule).1 i with
  | act _ _ => rw [e] at h; exact nomatch h
  | _ => rw [e] at h; injection h

/-! ## Queues -/

section
variable [GoZero T]

/-- C183, alone: the accesses of a call on a queue, made while no other goroutine does anything, do what the call does, with every heap. -/
theorem C183_queue_alone (op : QOp T) (s : DS T) : (op.body.run s).Shows DObs.ofOutcome (DQ.exec s op) := QOp.guards op s

theorem DQ.runOps_eq (ops : List (QOp T)) : ∀ {h : List (DNode T)} {l : DL} {ids : List Nat} {s : List T}, DInv h l ids s → (runOps DQ.exec ⟨h, l⟩ ops).1 = (runOps QOp.onList s ops).1 := by
  induction ops with
  | nil => intros; rfl
  | cons op ops ih =>
    intro h l ids s i
    obtain ⟨h', l', ids', a1, a2, _⟩ := i.exec op.toDeque
    simp only [runOps, DQ.exec_eq, a1, QOp.onList]
    rw [ih a2]

/-- C183, queues: any number of goroutines make calls on a queue that the calls `before` have built, each behind the lock. There is an order of the calls that are over, in which every goroutine's calls are in its own order, such
that what the goroutines see is what the calls give on a sequence in that order. While nobody writes, so is whatever is called next. -/
theorem C183_queue (heap : List (DNode T)) (before : List (QOp T)) (ops : Nat → List (QOp T)) (schedule : List Nat) :
    ∃ order : List (Nat × QOp T), ∃ s',
      Ordered DObs.ofOutcome QOp.locked ops ((LockedState.start (fun i => (ops i).map QOp.locked) (runOps DQ.exec ⟨heap, {}⟩ before).2).exec schedule) order
        (runOps QOp.onList (runOps QOp.onList [] before).2 (order.map (·.2))).1 s' ∧
      ∀ more, (runOps DQ.exec s' more).1 = (runOps QOp.onList (runOps QOp.onList [] (before ++ order.map (·.2))).2 more).1 := by
  have all : ∀ ops, (runOps DQ.exec ⟨heap, {}⟩ ops).1 = (runOps QOp.onList ([] : List T) ops).1 := fun ops => DQ.runOps_eq ops (DInv.zero heap)
  obtain ⟨order, h⟩ := C183_guarded (step := DQ.exec) (call := QOp.locked) QOp.guards (fun op hw => op.reads (by simpa [QOp.locked] using hw)) ops (runOps DQ.exec ⟨heap, {}⟩ before).2 schedule
  refine ⟨order, _, by rw [runOps_later all] at h; exact h, fun more => ?_⟩
  rw [← (runOps_append DQ.exec before (order.map (·.2)) _).2]
  exact runOps_later all _ _

/-- C183, all finish: finitely many goroutines on a queue are never stuck behind the lock, even if calls panic. -/
theorem C183_queue_finish (heap : List (DNode T)) (ops : Nat → List (QOp T)) (n : Nat) (hn : ∀ i, n ≤ i → ops i = []) (schedule : List Nat) :
    ∃ more, ((LockedState.start (fun i => (ops i).map QOp.locked) ⟨heap, {}⟩).exec (schedule ++ more)).finished := by
  refine C183_finish (step := DQ.exec) QOp.guards (fun op hw => op.reads (by simpa [QOp.locked] using hw)) ops _ n hn (fun h op => ?_) schedule
  have := runOps_later (f := DQ.exec) (g := QOp.onList) (a := ⟨heap, {}⟩) (b := ([] : List T)) (fun ops => DQ.runOps_eq ops (DInv.zero heap)) h [op]
  simp only [runOps, List.cons.injEq, and_true] at this
  rw [this]
  generalize (runOps QOp.onList ([] : List T) h).2 = l
  cases op <;> cases l <;> simp only [QOp.onList, QOp.toDeque, Deque.step, DObs.ofOutcome] <;> (try split) <;> exact fun h => nomatch h

theorem QOp.onList_run (ops : List (QOp T)) : ∀ s : Nat → List T, (runOps QOp.onList (s 0) ops).1 = (Deque.run s (ops.map (fun op => (0, op.toDeque)))).1 := by
  induction ops with
  | nil => intro s; rfl
  | cons op ops ih =>
    intro s
    simp only [runOps, List.map_cons, Deque.run, QOp.onList]
    have := ih (fun j => if j = 0 then (Deque.step (s 0) op.toDeque).2 else s j)
    rw [if_pos rfl] at this
    rw [this]

/-- C183, producers and consumers: goroutines push at the back of a new queue, pop from its front and look, behind the lock. In the order of the lock, the values that came out, followed by those still in the queue, are the values
that went in: none is lost, none comes out twice, and none overtakes another. -/
theorem C183_fifo (ops : Nat → List (QOp T)) (hp : ∀ i, ∀ op ∈ ops i, op.Plain) (schedule : List Nat) :
    ∃ (order : List (Nat × QOp T)) (obs : List (DObs T)) (s' : DS T) (rest : List T),
      Ordered DObs.ofOutcome QOp.locked ops ((LockedState.start (fun i => (ops i).map QOp.locked) ⟨[], {}⟩).exec schedule) order obs s' ∧
      takenFrom 0 (order.map (fun e => (0, e.2))) obs ++ rest = pushedTo 0 (order.map (fun e => (0, e.2))) ∧ (DQ.exec s' .len).1 = .num rest.length := by
  obtain ⟨order, s', h1, h2⟩ := C183_queue (T := T) [] [] ops schedule
  have plain : ∀ o ∈ order.map (fun e => (0, e.2)), o.1 = 0 → o.2.Plain := fun o ho _ => by
    obtain ⟨e, he, rfl⟩ := List.mem_map.1 ho
    refine hp e.1 e.2 ((h1.1 e.1).subset (List.mem_map.2 ⟨e, List.mem_filter.2 ⟨he, by simp⟩, rfl⟩))
  have eq : ∀ l : List (QOp T), (runOps QOp.onList [] l).1 = (DWorld.init.runQ (l.map (fun op => (0, op)))).1 := fun l => by
    rw [C36_history, List.map_map]
    exact QOp.onList_run l (fun _ => [])
  obtain ⟨rest, r1, r2⟩ := C36_fifo (order.map (fun e => (0, e.2))) 0 plain
  refine ⟨order, _, s', rest, h1, ?_, ?_⟩
  · show takenFrom 0 _ (runOps QOp.onList [] (order.map (·.2))).1 ++ rest = _
    rw [eq, List.map_map]
    exact r1
  · have a := h2 [.len]
    have b := eq (order.map (·.2) ++ [.len])
    rw [(runOps_append _ _ _ _).1, eq, List.map_append, List.map_map] at b
    have c := b.trans r2
    have d := List.append_cancel_left c
    have f := a.trans d
    simp only [runOps, List.cons.injEq, and_true] at f
    exact f

end

/-! ## Stacks -/

section
variable [GoZero T]

/-- C183, alone: the accesses of a call on a stack do alone what the call does, with every memory and every slice. -/
theorem C183_stack_alone (grow : Nat → Nat → Nat) (op : KOp T) (s : VS T) : ((op.body grow).run s).Shows DObs.ofOutcome (Stk.exec grow s op) := KOp.guards grow op s

theorem Stk.runOps_world (grow : Nat → Nat → Nat) (ops : List (KOp T)) : ∀ w : VWorld T, (w.runStacks grow (ops.map (fun op => (0, op)))).1 = (runOps (Stk.exec grow) ⟨w.mem, w.vars 0⟩ ops).1 := by
  induction ops with
  | nil => intro w; rfl
  | cons op ops ih =>
    intro w
    simp only [runOps, List.map_cons, VWorld.runStacks, ih]
    rfl

theorem KSeq.runOps_world (ops : List (KOp T)) : ∀ s : Nat → List T, (KSeq.run s (ops.map (fun op => (0, op)))).1 = (runOps KSeq.step (s 0) ops).1 := by
  induction ops with
  | nil => intro s; rfl
  | cons op ops ih =>
    intro s
    simp only [runOps, List.map_cons, KSeq.run, ih]
    rfl

theorem Stk.runOps_eq (grow : Nat → Nat → Nat) (m : Mem T) (ops : List (KOp T)) : (runOps (Stk.exec grow) ⟨m, Sl.empty⟩ ops).1 = (runOps KSeq.step [] ops).1 := by
  have a := Stk.runOps_world grow ops (VWorld.init m)
  have b := KSeq.runOps_world ops (fun _ => ([] : List T))
  rw [C49_history, b] at a
  exact a.symm

/-- C183, stacks: the same for a stack, whatever capacities `append` chooses. -/
theorem C183_stack (grow : Nat → Nat → Nat) (m : Mem T) (before : List (KOp T)) (ops : Nat → List (KOp T)) (schedule : List Nat) :
    ∃ order : List (Nat × KOp T), ∃ s',
      Ordered DObs.ofOutcome (KOp.locked grow) ops ((LockedState.start (fun i => (ops i).map (KOp.locked grow)) (runOps (Stk.exec grow) ⟨m, Sl.empty⟩ before).2).exec schedule) order
        (runOps KSeq.step (runOps KSeq.step [] before).2 (order.map (·.2))).1 s' ∧
      ∀ more, (runOps (Stk.exec grow) s' more).1 = (runOps KSeq.step (runOps KSeq.step [] (before ++ order.map (·.2))).2 more).1 := by
  have all := Stk.runOps_eq grow m
  obtain ⟨order, h⟩ := C183_guarded (step := Stk.exec grow) (KOp.guards grow) (fun op hw => op.reads grow (by simpa [KOp.locked] using hw)) ops (runOps (Stk.exec grow) ⟨m, Sl.empty⟩ before).2 schedule
  refine ⟨order, _, by rw [runOps_later all] at h; exact h, fun more => ?_⟩
  rw [← (runOps_append (Stk.exec grow) before (order.map (·.2)) _).2]
  exact runOps_later all _ _

/-- C183, all finish: finitely many goroutines on a stack are never stuck behind the lock, even if calls panic. -/
theorem C183_stack_finish (grow : Nat → Nat → Nat) (m : Mem T) (ops : Nat → List (KOp T)) (n : Nat) (hn : ∀ i, n ≤ i → ops i = []) (schedule : List Nat) :
    ∃ more, ((LockedState.start (fun i => (ops i).map (KOp.locked grow)) ⟨m, Sl.empty⟩).exec (schedule ++ more)).finished := by
  refine C183_finish (step := Stk.exec grow) (KOp.guards grow) (fun op hw => op.reads grow (by simpa [KOp.locked] using hw)) ops _ n hn (fun h op => ?_) schedule
  have := runOps_later (Stk.runOps_eq grow m) h [op]
  simp only [runOps, List.cons.injEq, and_true] at this
  rw [this]
  generalize (runOps KSeq.step ([] : List T) h).2 = l
  cases op <;> cases l <;> simp only [KSeq.step, DObs.ofOutcome] <;> (try split) <;> exact fun h => nomatch h

end

/-! ## Without the lock -/

/-- A queue after the calls `before`. -/
def exQueueAfter (before : List (QOp Int)) : DS Int := (runOps DQ.exec ⟨[], {}⟩ before).2

/-- Goroutine 0 makes call `a`, goroutine 1 makes call `b`: what becomes of them, and what the calls `later` then give. -/
def exQueuePair (a b : QOp Int) (before : List (QOp Int)) (schedule : List Nat) (later : List (QOp Int)) : Option (Outcome (DObs Int)) × Option (Outcome (DObs Int)) × List (DObs Int) :=
  let e := Steps.interleave (fun i => if i = 0 then a.body else b.body) (exQueueAfter before) schedule
  ((e.1 0).ended, (e.1 1).ended, (runOps DQ.exec e.2 later).1)

/-- Goroutine 0 makes `k` accesses, then goroutine 1 makes its whole call, then goroutine 0 the rest of its own. -/
def exPreempted (k : Nat) : List Nat := List.replicate k 0 ++ List.replicate 40 1 ++ List.replicate 40 0

/-- C183, a value lost: two goroutines push, both calls return, and one of the two values is gone: `Len` is 2, but the second value that comes out is a zero. -/
theorem C183_queue_lost : ∃ schedule, exQueuePair (.pushBack 1) (.pushBack 2) [] schedule [.len, .tryPopFront, .tryPopFront] =
    (some (.ret .unit), some (.ret .unit), [.num 2, .try_ 1 true, .try_ 0 true]) := ⟨exPreempted 2, by decide +kernel⟩

/-- C183, a wrong count: both calls return, and `Len` is 1; the second value is out of reach for ever. -/
theorem C183_queue_count : ∃ schedule, exQueuePair (.pushBack 1) (.pushBack 2) [] schedule [.len, .tryPopFront, .tryPopFront] =
    (some (.ret .unit), some (.ret .unit), [.num 1, .try_ 1 true, .try_ 0 false]) := ⟨exPreempted 19, by decide +kernel⟩

/-- C183, a push that panics: it meets the sentinel of another that is not linked yet. -/
theorem C183_queue_push_panics : ∃ schedule, exQueuePair (.pushBack 1) (.pushBack 2) [] schedule [.len, .tryPopFront, .tryPopFront] =
    (some (.ret .unit), some .panic, [.num 1, .try_ 1 true, .try_ 0 false]) := ⟨exPreempted 3, by decide +kernel⟩

/-- C183, a value that comes out twice: two consumers get the same value, and the other one comes out for nobody. -/
theorem C183_queue_twice : ∃ schedule, exQueuePair .popFront .popFront [.pushBack 1, .pushBack 2] schedule [.len, .tryPopFront] =
    (some (.ret (.val 1)), some (.ret (.val 1)), [.num 0, .try_ 0 false]) := ⟨exPreempted 6, by decide +kernel⟩

/-- C183, `TryPopFront` panics, though it never does alone. -/
theorem C183_queue_try_panics : ∃ schedule, exQueuePair .tryPopFront .tryPopFront [.pushBack 1] schedule [.len, .tryPopFront] =
    (some .panic, some (.ret (.try_ 1 true)), [.num 0, .try_ 0 false]) := ⟨exPreempted 3, by decide +kernel⟩

/-- C183, a negative length: the only value comes out twice, and from then on the queue is of no use. -/
theorem C183_queue_negative : ∃ schedule, exQueuePair .tryPopFront .tryPopFront [.pushBack 1] schedule [.len, .tryPopFront, .tryPopFront] =
    (some (.ret (.try_ 1 true)), some (.ret (.try_ 1 true)), [.num (-1), .try_ 0 true, .panicked]) := ⟨exPreempted 6, by decide +kernel⟩

/-- Capacities double. -/
def exDoubling : Nat → Nat → Nat := fun _ n => 2 * n

/-- The same for a stack. -/
def exStackPair (a b : KOp Int) (before : List (KOp Int)) (schedule : List Nat) (later : List (KOp Int)) : Option (Outcome (DObs Int)) × Option (Outcome (DObs Int)) × List (DObs Int) :=
  let e := Steps.interleave (fun i => if i = 0 then a.body exDoubling else b.body exDoubling) (runOps (Stk.exec exDoubling) (⟨{ cell := fun _ => 0, top := 0 }, Sl.empty⟩ : VS Int) before).2 schedule
  ((e.1 0).ended, (e.1 1).ended, (runOps (Stk.exec exDoubling) e.2 later).1)

/-- C183, a lost push: both `Push`es return, the stack has one element. -/
theorem C183_stack_lost : ∃ schedule, exStackPair (.push 1) (.push 2) [] schedule [.len, .tryPop, .tryPop] =
    (some (.ret .unit), some (.ret .unit), [.num 1, .try_ 1 true, .try_ 0 false]) := ⟨exPreempted 1, by decide +kernel⟩

/-- C183, an element that comes out twice, while the other stays. -/
theorem C183_stack_twice : ∃ schedule, exStackPair .pop .pop [.push 1, .push 2] schedule [.len, .tryPop] =
    (some (.ret (.val 2)), some (.ret (.val 2)), [.num 1, .try_ 1 true]) := ⟨exPreempted 5, by decide +kernel⟩

/-- C183, an element that comes out for nobody: both get the same one, and the stack is empty. -/
theorem C183_stack_dropped : ∃ schedule, exStackPair .pop .pop [.push 1, .push 2] schedule [.len, .tryPop] =
    (some (.ret (.val 2)), some (.ret (.val 2)), [.num 0, .try_ 0 false]) := ⟨exPreempted 3, by decide +kernel⟩

/-- C183, `TryPop` panics, though it never does alone: the stack was not empty when it looked. -/
theorem C183_stack_try_panics : ∃ schedule, exStackPair .tryPop .tryPop [.push 1] schedule [.len] = (some .panic, some (.ret (.try_ 1 true)), [.num 0]) := ⟨exPreempted 1, by decide +kernel⟩

/-- C183, `Pop` panics on a stack that is never empty: another goroutine pushes between its two looks at the slice. -/
theorem C183_stack_pop_panics : ∃ schedule, exStackPair .pop (.push 3) [.push 1, .push 2] schedule [.len] = (some .panic, some (.ret .unit), [.num 3]) := ⟨exPreempted 1, by decide +kernel⟩

/-! ## Examples -/

/-- Two goroutines on a queue behind the lock, goroutine 1 for reading. The schedule lets them alternate: the first waits for nobody, and the second sees both values or none. -/
example : (((LockedState.start (fun i => if i = 0 then [QOp.locked (.pushBack 7), QOp.locked .popFront] else if i = 1 then [QOp.locked .len, QOp.locked .popFront] else [])
      (exQueueAfter [])).exec ((List.replicate 60 [0, 1]).flatten)).log.map (fun e => (e.1, DObs.ofOutcome e.2.2))) = [(0, .unit), (1, .num 1), (0, .val 7), (1, .panicked)] := by decide +kernel

/-- They have all finished. -/
example : let st := (LockedState.start (fun i => if i = 0 then [QOp.locked (.pushBack 7), QOp.locked .popFront] else if i = 1 then [QOp.locked .len, QOp.locked .popFront] else [])
      (exQueueAfter [])).exec ((List.replicate 60 [0, 1]).flatten)
    (st.threads 0).todo.length = 0 ∧ (st.threads 1).todo.length = 0 ∧ st.writer = none ∧ st.readers = [] := by decide +kernel

/-- Two goroutines on a stack behind the lock. -/
example : (((LockedState.start (fun i => if i = 0 then [KOp.locked exDoubling (.push 7), KOp.locked exDoubling .tryPop] else if i = 1 then [KOp.locked exDoubling (.push 8), KOp.locked exDoubling .top] else [])
      (⟨{ cell := fun _ => 0, top := 0 }, Sl.empty⟩ : VS Int)).exec ((List.replicate 30 [0, 1]).flatten)).log.map (fun e => (e.1, DObs.ofOutcome e.2.2))) = [(0, .unit), (1, .unit), (0, .try_ 8 true), (1, .val 7)] := by decide +kernel

/-- `Front` and `Len` without a lock on a queue with two elements, in turns. -/
example : exQueuePair .front .len [.pushBack 4, .pushBack 5] [0, 1, 0, 1, 0, 1, 0, 1, 0, 1] [.tryPopFront, .tryPopFront] =
    (some (.ret (.val 4)), some (.ret (.num 2)), [.try_ 4 true, .try_ 5 true]) := by decide +kernel

/-- Plain operations, as `C183_fifo` wants them. -/
example : ∀ i, ∀ op ∈ (fun i => if i = 0 then [QOp.pushBack 7, .pushBack 8] else if i = 1 then [QOp.tryPopFront, .len] else [] : Nat → List (QOp Int)) i, op.Plain := by
  intro i op h
  dsimp only at h
  split at h
  · simp only [List.mem_cons, List.not_mem_nil, or_false] at h; rcases h with rfl | rfl <;> trivial
  · split at h
    · simp only [List.mem_cons, List.not_mem_nil, or_false] at h; rcases h with rfl | rfl <;> trivial
    · exact absurd h List.not_mem_nil

end Stl4go
