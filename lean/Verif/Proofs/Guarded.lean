import Verif.Spec.Guarded
import Verif.Proofs.SkipListLockedMap
/-! # Proofs about queues and stacks access by access -/
namespace Stl4go
variable {T σ α β ω Op : Type}

theorem Steps.run_prim (m : GoM σ α) : (Steps.prim m).run = m := by
  funext s
  show (match m s with | .ok a _ => Steps.ret a | .panic _ => .panic | .diverge => .diverge).run (match m s with | .ok _ s' => s' | .panic s' => s' | .diverge => s) = m s
  cases m s <;> rfl

theorem Steps.run_bind' (p : Steps σ α) (f : α → Steps σ β) : (p >>= f).run = (p.run >>= fun a => (f a).run) := funext fun s => Steps.run_bind p f s

theorem Steps.run_ret (a : α) : (Steps.ret a : Steps σ α).run = pure a := rfl
theorem Steps.run_panic : (Steps.panic : Steps σ α).run = GoM.panic := rfl
theorem Steps.run_ite {c : Prop} [Decidable c] (p q : Steps σ α) : (if c then p else q).run = if c then p.run else q.run := by split <;> rfl

/-! ## One list -/

theorem acHead_run (s : DS T) : acHead.run s = .ok s.l.head s := by rw [acHead, Steps.run_prim]; rfl
theorem acSetHead_run (p : Option Nat) (s : DS T) : (acSetHead p).run s = .ok () { s with l := { s.l with head := p } } := by rw [acSetHead, Steps.run_prim]; rfl
theorem acLength_run (s : DS T) : acLength.run s = .ok s.l.length s := by rw [acLength, Steps.run_prim]; rfl
theorem acSetLength_run (n : Int) (s : DS T) : (acSetLength n).run s = .ok () { s with l := { s.l with length := n } } := by rw [acSetLength, Steps.run_prim]; rfl
theorem acNext_run (p : Option Nat) (s : DS T) : (acNext p).run s = (do let n ← DS.load p; return n.next : GoM (DS T) _) s := by rw [acNext, Steps.run_prim]
theorem acPrev_run (p : Option Nat) (s : DS T) : (acPrev p).run s = (do let n ← DS.load p; return n.prev : GoM (DS T) _) s := by rw [acPrev, Steps.run_prim]
theorem acValue_run (p : Option Nat) (s : DS T) : (acValue p).run s = (do let n ← DS.load p; return n.value : GoM (DS T) _) s := by rw [acValue, Steps.run_prim]
theorem acSetNext_run (p v : Option Nat) (s : DS T) : (acSetNext p v).run s = DS.setNext p v s := by rw [acSetNext, Steps.run_prim]
theorem acSetPrev_run (p v : Option Nat) (s : DS T) : (acSetPrev p v).run s = DS.setPrev p v s := by rw [acSetPrev, Steps.run_prim]
theorem acAlloc_run (n : DNode T) (s : DS T) : (acAlloc n).run s = DS.alloc n s := by rw [acAlloc, Steps.run_prim]

theorem acCount_run (d : Int) (s : DS T) : (acCount d).run s = .ok () { s with l := { s.l with length := s.l.length + d } } := by
  simp only [acCount, Steps.run_bind, acLength_run, acSetLength_run, GoM.bind_def]

theorem acIsEmpty_run (s : DS T) : acIsEmpty.run s = DL.isEmpty s := by
  simp only [acIsEmpty, Steps.run_bind, acLength_run, GoM.bind_def]
  rfl

theorem acEnsureHead_run [GoZero T] (s : DS T) : acEnsureHead.run s = DL.ensureHead s := by
  simp only [acEnsureHead, DL.ensureHead, Steps.run_bind, acHead_run, GoM.bind_def, Steps.run_ite, GoM.get]
  by_cases h : s.l.head = none
  · rw [if_pos h, if_pos h]
    simp only [Steps.run_bind, acHead_run, GoM.bind_def, acAlloc_run, acSetHead_run, acSetPrev_run, acSetNext_run, DS.alloc, GoM.modify]
    simp [DS.setPrev, DS.setNext]
  · rw [if_neg h, if_neg h]; rfl

/-- Loads, once it is known what they give. -/
theorem DS.load_none (s : DS T) : DS.load none s = .panic s := rfl
theorem DS.load_some (p : Nat) (s : DS T) : DS.load (some p) s = match s.heap[p]? with | some n => .ok n s | none => .panic s := rfl
theorem DS.setNext_some (p : Nat) (v : Option Nat) (s : DS T) : DS.setNext (some p) v s = match s.heap[p]? with | some n => .ok () { s with heap := s.heap.set p { n with next := v } } | none => .panic s := rfl
theorem DS.setPrev_some (p : Nat) (v : Option Nat) (s : DS T) : DS.setPrev (some p) v s = match s.heap[p]? with | some n => .ok () { s with heap := s.heap.set p { n with prev := v } } | none => .panic s := rfl

/-- Only nodes change. -/
theorem DS.setNext_l {p v : Option Nat} {s s' : DS T} {u : Unit} (h : DS.setNext p v s = .ok u s') : s'.l = s.l := by
  unfold DS.setNext at h
  split at h
  · exact nomatch h
  · split at h
    · injection h with _ h; rw [← h]
    · exact nomatch h
theorem DS.setPrev_l {p v : Option Nat} {s s' : DS T} {u : Unit} (h : DS.setPrev p v s = .ok u s') : s'.l = s.l := by
  unfold DS.setPrev at h
  split at h
  · exact nomatch h
  · split at h
    · injection h with _ h; rw [← h]
    · exact nomatch h

/-- Reading a node changes nothing. -/
theorem DS.load_same {p : Option Nat} {s s' : DS T} {n : DNode T} (h : DS.load p s = .ok n s') : s' = s := by
  unfold DS.load at h
  split at h
  · exact nomatch h
  · split at h
    · injection h with _ h; exact h.symm
    · exact nomatch h

theorem acPushBack_run [GoZero T] (v : T) (s : DS T) : (acPushBack v).run s = DL.pushBack v s := by
  simp only [acPushBack, DL.pushBack, Steps.run_bind, acEnsureHead_run, GoM.bind_def]
  cases DL.ensureHead s with
  | panic _ => rfl
  | diverge => rfl
  | ok a s =>
    simp only [Steps.run_bind, acHead_run, GoM.bind_def, GoM.get, acPrev_run, acAlloc_run, acSetNext_run, acSetPrev_run, acCount_run, GoM.modify]
    cases hh : s.l.head with
    | none => simp [DS.load]
    | some h =>
      cases hn : s.heap[h]? with
      | none => simp [DS.load, hn]
      | some n =>
        have hlt : h < s.heap.length := (List.getElem?_eq_some_iff.1 hn).1
        simp only [DS.load_some, hn, pure, GoM.pure, DS.alloc, List.getElem?_append_left hlt, hh]
        generalize hx : DS.setNext n.prev _ _ = r
        cases r with
        | panic _ => rfl
        | diverge => rfl
        | ok u s2 => simp only [DS.setNext_l hx, hh]

theorem acPushFront_run [GoZero T] (v : T) (s : DS T) : (acPushFront v).run s = DL.pushFront v s := by
  simp only [acPushFront, DL.pushFront, Steps.run_bind, acEnsureHead_run, GoM.bind_def]
  cases DL.ensureHead s with
  | panic _ => rfl
  | diverge => rfl
  | ok a s =>
    simp only [Steps.run_bind, acHead_run, GoM.bind_def, GoM.get, acNext_run, acAlloc_run, acSetNext_run, acSetPrev_run, acCount_run, GoM.modify]
    cases hh : s.l.head with
    | none => simp [DS.load]
    | some h =>
      cases hn : s.heap[h]? with
      | none => simp [DS.load, hn]
      | some n =>
        have hlt : h < s.heap.length := (List.getElem?_eq_some_iff.1 hn).1
        simp only [DS.load_some, hn, pure, GoM.pure, DS.alloc, List.getElem?_append_left hlt, hh]
        generalize hx : DS.setPrev n.next _ _ = r
        cases r with
        | panic _ => rfl
        | diverge => rfl
        | ok u s2 => simp only [DS.setPrev_l hx, hh]

theorem acTryPopFront_run [GoZero T] (s : DS T) : acTryPopFront.run s = DL.tryPopFront s := by
  simp only [acTryPopFront, DL.tryPopFront, Steps.run_bind, acIsEmpty_run, GoM.bind_def]
  cases DL.isEmpty s with
  | panic _ => rfl
  | diverge => rfl
  | ok e s =>
    dsimp only
    rw [Steps.run_ite]
    cases e with
    | true => rfl
    | false =>
      rw [if_neg (by simp), if_neg (by simp)]
      simp only [Steps.run_bind, acHead_run, GoM.bind_def, GoM.get, acNext_run, acValue_run, acSetNext_run, acSetPrev_run, acCount_run, GoM.modify]
      generalize hh : s.l.head = hd
      cases h1 : DS.load hd s with
      | panic _ => rfl
      | diverge => rfl
      | ok n s1 =>
        cases DS.load_same h1
        simp only [pure, GoM.pure]
        cases h2 : DS.load n.next s with
        | panic _ => rfl
        | diverge => rfl
        | ok n2 s2 =>
          cases DS.load_same h2
          simp only [h2, hh]
          cases h3 : DS.setNext hd n2.next s with
          | panic _ => rfl
          | diverge => rfl
          | ok u s3 =>
            have e3 := DS.setNext_l h3
            simp only [e3, hh]
            cases h4 : DS.load hd s3 with
            | panic _ => rfl
            | diverge => rfl
            | ok n4 s4 =>
              cases DS.load_same h4
              simp only [e3, hh]
              cases h5 : DS.setPrev n4.next hd s3 with
              | panic _ => rfl
              | diverge => rfl
              | ok u s5 =>
                simp only
                cases h6 : DS.setPrev n.next none s5 with
                | panic _ => rfl
                | diverge => rfl
                | ok u s6 =>
                  simp only
                  cases h7 : DS.setNext n.next none s6 with
                  | panic _ => rfl
                  | diverge => rfl
                  | ok u s7 => rfl

theorem acTryPopBack_run [GoZero T] (s : DS T) : acTryPopBack.run s = DL.tryPopBack s := by
  simp only [acTryPopBack, DL.tryPopBack, Steps.run_bind, acIsEmpty_run, GoM.bind_def]
  cases DL.isEmpty s with
  | panic _ => rfl
  | diverge => rfl
  | ok e s =>
    dsimp only
    rw [Steps.run_ite]
    cases e with
    | true => rfl
    | false =>
      rw [if_neg (by simp), if_neg (by simp)]
      simp only [Steps.run_bind, acHead_run, GoM.bind_def, GoM.get, acPrev_run, acValue_run, acSetNext_run, acSetPrev_run, acCount_run, GoM.modify]
      generalize hh : s.l.head = hd
      cases h1 : DS.load hd s with
      | panic _ => rfl
      | diverge => rfl
      | ok n s1 =>
        cases DS.load_same h1
        simp only [pure, GoM.pure]
        cases h2 : DS.load n.prev s with
        | panic _ => rfl
        | diverge => rfl
        | ok n2 s2 =>
          cases DS.load_same h2
          simp only [h1, h2, hh]
          cases h3 : DS.setPrev hd n2.prev s with
          | panic _ => rfl
          | diverge => rfl
          | ok u s3 =>
            have e3 := DS.setPrev_l h3
            simp only [e3, hh]
            cases h4 : DS.load hd s3 with
            | panic _ => rfl
            | diverge => rfl
            | ok n4 s4 =>
              cases DS.load_same h4
              simp only [e3, hh]
              cases h5 : DS.setNext n4.prev hd s3 with
              | panic _ => rfl
              | diverge => rfl
              | ok u s5 =>
                simp only
                cases h6 : DS.setPrev n.prev none s5 with
                | panic _ => rfl
                | diverge => rfl
                | ok u s6 =>
                  simp only
                  cases h7 : DS.setNext n.prev none s6 with
                  | panic _ => rfl
                  | diverge => rfl
                  | ok u s7 => rfl

theorem acPopFront_run [GoZero T] (s : DS T) : acPopFront.run s = DL.popFront s := by
  simp only [acPopFront, DL.popFront, Steps.run_bind, acTryPopFront_run, GoM.bind_def]
  cases DL.tryPopFront s with
  | panic _ => rfl
  | diverge => rfl
  | ok r s => dsimp only; rw [Steps.run_ite]; split <;> rfl

theorem acPopBack_run [GoZero T] (s : DS T) : acPopBack.run s = DL.popBack s := by
  simp only [acPopBack, DL.popBack, Steps.run_bind, acTryPopBack_run, GoM.bind_def]
  cases DL.tryPopBack s with
  | panic _ => rfl
  | diverge => rfl
  | ok r s => dsimp only; rw [Steps.run_ite]; split <;> rfl

theorem acFront_run (s : DS T) : acFront.run s = DL.front s := by
  simp only [acFront, DL.front, Steps.run_bind, acIsEmpty_run, GoM.bind_def]
  cases DL.isEmpty s with
  | panic _ => rfl
  | diverge => rfl
  | ok e s =>
    dsimp only
    rw [Steps.run_ite]
    cases e with
    | true => rfl
    | false =>
      rw [if_neg (by simp), if_neg (by simp)]
      simp only [Steps.run_bind, acHead_run, GoM.bind_def, GoM.get, acNext_run, acValue_run]
      cases h1 : DS.load s.l.head s <;> rfl

theorem acBack_run (s : DS T) : acBack.run s = DL.back s := by
  simp only [acBack, DL.back, Steps.run_bind, acIsEmpty_run, GoM.bind_def]
  cases DL.isEmpty s with
  | panic _ => rfl
  | diverge => rfl
  | ok e s =>
    dsimp only
    rw [Steps.run_ite]
    cases e with
    | true => rfl
    | false =>
      rw [if_neg (by simp), if_neg (by simp)]
      simp only [Steps.run_bind, acHead_run, GoM.bind_def, GoM.get, acPrev_run, acValue_run]
      cases h1 : DS.load s.l.head s <;> rfl

theorem acClear_run (s : DS T) : acClear.run s = DL.clear s := by
  simp only [acClear, DL.clear, Steps.run_bind, acHead_run, GoM.bind_def, Steps.run_ite, GoM.get]
  by_cases h : s.l.head ≠ none
  · rw [if_pos h, if_pos h]
    simp only [Steps.run_bind, acHead_run, GoM.bind_def, acSetPrev_run, acSetNext_run, acSetLength_run, GoM.modify]
    cases h1 : DS.setPrev s.l.head s.l.head s with
    | panic _ => rfl
    | diverge => rfl
    | ok u s1 => simp only [DS.setPrev_l h1]
  · rw [if_neg h, if_neg h, acSetLength_run]; rfl

/-- What an operation of a queue does alone. -/
theorem DS.observe_run (f : α → DObs T) (p : Steps (DS T) α) (m : GoM (DS T) α) (h : ∀ s, p.run s = m s) (s : DS T) :
    ((p >>= fun a => Steps.ret (f a)).run s).Shows DObs.ofOutcome (DS.observe f m s) := by
  rw [Steps.run_bind, GoM.bind_def, h, DS.observe]
  cases m s <;> first | rfl | trivial

theorem QOp.guards [GoZero T] : Guards DObs.ofOutcome (DQ.exec (T := T)) QOp.locked := by
  intro op s
  cases op with
  | new => exact DS.observe_run (fun _ => .unit) (Steps.prim DQ.new) DQ.new (fun s => by rw [Steps.run_prim]) s
  | pushFront v => exact DS.observe_run (fun _ => .unit) _ _ (acPushFront_run v) s
  | pushBack v => exact DS.observe_run (fun _ => .unit) _ _ (acPushBack_run v) s
  | popFront => exact DS.observe_run .val _ _ acPopFront_run s
  | popBack => exact DS.observe_run .val _ _ acPopBack_run s
  | tryPopFront => exact DS.observe_run (fun r => .try_ r.1 r.2) _ _ acTryPopFront_run s
  | tryPopBack => exact DS.observe_run (fun r => .try_ r.1 r.2) _ _ acTryPopBack_run s
  | front => exact DS.observe_run .val _ _ acFront_run s
  | back => exact DS.observe_run .val _ _ acBack_run s
  | len => exact DS.observe_run .num _ DL.len (fun s => by rw [acLength_run]; rfl) s
  | isEmpty => exact DS.observe_run .flag _ _ acIsEmpty_run s
  | clear => exact DS.observe_run (fun _ => .unit) _ _ acClear_run s

/-! ## Only looking -/

theorem Steps.Reads.prim {m : GoM σ α} (h : ∀ s, match m s with | .ok _ s' => s' = s | .panic s' => s' = s | .diverge => True) : (Steps.prim m).Reads := by
  refine ⟨fun s => ?_, fun s => ?_⟩
  · have := h s
    dsimp only
    revert this
    cases m s with
    | ok a s' => exact id
    | panic s' => exact id
    | diverge => exact fun _ => rfl
  · dsimp only
    cases m s <;> trivial

theorem Steps.Reads.bind {p : Steps σ α} {f : α → Steps σ β} (h : p.Reads) (hf : ∀ a, (f a).Reads) : (p >>= f).Reads := by
  show (p.bind f).Reads
  induction p with
  | ret a => exact hf a
  | panic => trivial
  | diverge => trivial
  | act next upd ih => exact ⟨h.1, fun s => ih s (h.2 s)⟩

theorem Steps.Reads.ite {c : Prop} [Decidable c] {p q : Steps σ α} (hp : p.Reads) (hq : q.Reads) : (if c then p else q).Reads := by split <;> assumption

theorem acHead_reads : (acHead : Steps (DS T) _).Reads := .prim fun _ => rfl
theorem acLength_reads : (acLength : Steps (DS T) _).Reads := .prim fun _ => rfl
theorem DS.load_reads (p : Option Nat) (f : DNode T → α) : (Steps.prim (do let n ← DS.load p; return f n : GoM (DS T) α)).Reads := .prim fun s => by
  rw [GoM.bind_def]
  cases p with
  | none => rfl
  | some p => rw [DS.load_some]; cases s.heap[p]? <;> rfl
theorem acIsEmpty_reads : (acIsEmpty : Steps (DS T) _).Reads := acLength_reads.bind fun _ => trivial
theorem acFront_reads : (acFront : Steps (DS T) T).Reads := acIsEmpty_reads.bind fun _ => .ite trivial (acHead_reads.bind fun _ => (DS.load_reads _ _).bind fun _ => DS.load_reads _ _)
theorem acBack_reads : (acBack : Steps (DS T) T).Reads := acIsEmpty_reads.bind fun _ => .ite trivial (acHead_reads.bind fun _ => (DS.load_reads _ _).bind fun _ => DS.load_reads _ _)

theorem QOp.reads [GoZero T] (op : QOp T) (h : op.looks = true) : op.body.Reads := by
  cases op with
  | front => exact acFront_reads.bind fun _ => trivial
  | back => exact acBack_reads.bind fun _ => trivial
  | len => exact acLength_reads.bind fun _ => trivial
  | isEmpty => exact acIsEmpty_reads.bind fun _ => trivial
  | _ => exact nomatch h

/-! ## One stack -/

theorem acElems_run (s : VS T) : acElems.run s = .ok s.v s := by rw [acElems, Steps.run_prim]; rfl
theorem acSetElems_run (e : Sl) (s : VS T) : (acSetElems e).run s = .ok () { s with v := e } := by rw [acSetElems, Steps.run_prim]; rfl
theorem acElem_run (e : Sl) (i : Int) (s : VS T) : (acElem e i).run s = VS.on (e.get i) s := by rw [acElem, Steps.run_prim]
theorem acSlice_run (e : Sl) (i j : Int) (s : VS T) : (acSlice e i j).run s = VS.on (e.slice i j) s := by rw [acSlice, Steps.run_prim]

theorem acStkNewCap_run [GoZero T] (c : Int) (s : VS T) : (acStkNewCap c).run s = Stk.newCap c s := by
  simp only [acStkNewCap, Steps.run_bind, Steps.run_prim, acSetElems_run, Stk.newCap, GoM.bind_def, VS.assign]

theorem acStkClear_run (s : VS T) : acStkClear.run s = Stk.clear s := by
  simp only [acStkClear, Stk.clear, Steps.run_bind, acElems_run, GoM.bind_def, acSlice_run, acSetElems_run, VS.recv, VS.assign]

theorem acStkPush_run [GoZero T] (grow : Nat → Nat → Nat) (t : T) (s : VS T) : (acStkPush grow t).run s = Stk.push grow t s := by
  simp only [acStkPush, Stk.push, Steps.run_bind, acElems_run, GoM.bind_def, Steps.run_prim, acSetElems_run, VS.recv, VS.assign]

theorem VS.get_v {e : Sl} {i : Int} {s s' : VS T} {t : T} (h : VS.on (e.get i) s = .ok t s') : s'.v = s.v := by
  unfold VS.on at h
  split at h
  · injection h with _ h; rw [← h]
  · exact nomatch h
  · exact nomatch h

theorem acStkTake_run (s : VS T) : acStkTake.run s = Stk.pop s := by
  simp only [acStkTake, Stk.pop, Steps.run_bind, acElems_run, GoM.bind_def, acElem_run, acSlice_run, acSetElems_run, VS.recv, VS.assign]
  cases h : VS.on (s.v.get (s.v.len - 1)) s with
  | panic _ => rfl
  | diverge => rfl
  | ok t s' => simp only [VS.get_v h]; rfl

theorem acStkPop_run (s : VS T) : acStkPop.run s = Stk.pop s := acStkTake_run s

theorem acStkTryPop_run [GoZero T] (s : VS T) : acStkTryPop.run s = Stk.tryPop s := by
  simp only [acStkTryPop, Stk.tryPop, Steps.run_bind, acElems_run, GoM.bind_def, VS.recv]
  rw [Steps.run_ite]
  by_cases h : s.v.len = 0
  · rw [if_pos h, if_pos h]; rfl
  · rw [if_neg h, if_neg h]
    simp only [Steps.run_bind, acStkTake_run, Stk.pop, GoM.bind_def, VS.recv, VS.assign]
    cases VS.on (s.v.get (s.v.len - 1)) s with
    | panic _ => rfl
    | diverge => rfl
    | ok t s' => dsimp only; cases VS.on (s.v.slice 0 (s.v.len - 1)) s' <;> rfl

theorem acStkTop_run (s : VS T) : acStkTop.run s = Stk.top s := by
  simp only [acStkTop, Stk.top, Steps.run_bind, acElems_run, GoM.bind_def, acElem_run, VS.recv]

theorem VS.observe_run (f : α → DObs T) (p : Steps (VS T) α) (m : GoM (VS T) α) (h : ∀ s, p.run s = m s) (s : VS T) :
    ((p >>= fun a => Steps.ret (f a)).run s).Shows DObs.ofOutcome (VS.observe f m s) := by
  rw [Steps.run_bind, GoM.bind_def, h, VS.observe]
  cases m s <;> first | rfl | trivial

theorem KOp.guards [GoZero T] (grow : Nat → Nat → Nat) : Guards DObs.ofOutcome (Stk.exec (T := T) grow) (KOp.locked grow) := by
  intro op s
  cases op with
  | new => exact VS.observe_run (fun _ => .unit) (Steps.prim Stk.new) Stk.new (fun s => by rw [Steps.run_prim]) s
  | newCap c => exact VS.observe_run (fun _ => .unit) _ _ (acStkNewCap_run c) s
  | push x => exact VS.observe_run (fun _ => .unit) _ _ (acStkPush_run grow x) s
  | pop => exact VS.observe_run .val _ _ acStkPop_run s
  | tryPop => exact VS.observe_run (fun r => .try_ r.1 r.2) _ _ acStkTryPop_run s
  | top => exact VS.observe_run .val _ _ acStkTop_run s
  | clear => exact VS.observe_run (fun _ => .unit) _ _ acStkClear_run s
  | len => exact VS.observe_run (fun e : Sl => .num e.len) _ VS.recv (fun s => by rw [acElems_run]; rfl) s
  | isEmpty => exact VS.observe_run (fun e : Sl => .flag (e.len == 0)) _ VS.recv (fun s => by rw [acElems_run]; rfl) s

theorem acElems_reads : (acElems : Steps (VS T) _).Reads := .prim fun _ => rfl
theorem acElem_reads (e : Sl) (i : Int) : (acElem e i : Steps (VS T) T).Reads := .prim fun s => by
  unfold VS.on Sl.get
  by_cases h : 0 ≤ i ∧ i < e.len
  · rw [if_pos h]
  · rw [if_neg h]
theorem acStkTop_reads : (acStkTop : Steps (VS T) T).Reads := acElems_reads.bind fun _ => acElem_reads _ _

theorem KOp.reads [GoZero T] (grow : Nat → Nat → Nat) (op : KOp T) (h : op.looks = true) : (op.body grow).Reads := by
  cases op with
  | top => exact acStkTop_reads.bind fun _ => trivial
  | len => exact acElems_reads.bind fun _ => trivial
  | isEmpty => exact acElems_reads.bind fun _ => trivial
  | _ => exact nomatch h

/-! ## Any container -/

theorem Serially.ops {see : Outcome α → ω} {step : σ → Op → ω × σ} {call : Op → LockedCall σ α} (hg : Guards see step call) :
    ∀ {l : List (LockedCall σ α × Outcome α)} {s s' : σ}, Serially s l s' → ∀ ops : List Op, l.map (·.1) = ops.map call → l.map (fun e => see e.2) = (runOps step s ops).1 ∧ s' = (runOps step s ops).2 := by
  intro l s s' h
  induction h with
  | nil s => intro ops e; cases ops with
    | nil => exact ⟨rfl, rfl⟩
    | cons _ _ => exact nomatch e
  | @ret s _ _ _ _ _ hc _ ih => intro ops e; cases ops with
    | nil => exact nomatch e
    | cons op ops =>
      injection e with e1 e2
      have := hg op
      rw [← e1] at this
      have := this s
      rw [hc] at this
      change step _ op = _ at this
      obtain ⟨a, b⟩ := ih ops e2
      simp only [runOps, this, List.map_cons]
      exact ⟨by rw [a], b⟩
  | @panic s _ _ _ _ hc _ ih => intro ops e; cases ops with
    | nil => exact nomatch e
    | cons op ops =>
      injection e with e1 e2
      have := hg op
      rw [← e1] at this
      have := this s
      rw [hc] at this
      change step _ op = _ at this
      obtain ⟨a, b⟩ := ih ops e2
      simp only [runOps, this, List.map_cons]
      exact ⟨by rw [a], b⟩

theorem runOps_append (step : σ → Op → ω × σ) (a b : List Op) : ∀ s, (runOps step s (a ++ b)).1 = (runOps step s a).1 ++ (runOps step (runOps step s a).2 b).1 ∧ (runOps step s (a ++ b)).2 = (runOps step (runOps step s a).2 b).2 := by
  induction a with
  | nil => exact fun s => ⟨rfl, rfl⟩
  | cons op a ih =>
    intro s
    obtain ⟨h1, h2⟩ := ih (step s op).2
    exact ⟨by simp only [List.cons_append, runOps, h1], h2⟩

theorem runOps_length (step : σ → Op → ω × σ) (a : List Op) : ∀ s, (runOps step s a).1.length = a.length := by
  induction a with
  | nil => exact fun s => rfl
  | cons op a ih => intro s; simp only [runOps, List.length_cons, ih]

/-- Two systems that answer every history alike do so from every point on. -/
theorem runOps_later {τ : Type} {f : σ → Op → ω × σ} {g : τ → Op → ω × τ} {a : σ} {b : τ} (h : ∀ ops, (runOps f a ops).1 = (runOps g b ops).1) (before ops : List Op) :
    (runOps f (runOps f a before).2 ops).1 = (runOps g (runOps g b before).2 ops).1 := by
  have := h (before ++ ops)
  rw [(runOps_append f before ops a).1, (runOps_append g before ops b).1] at this
  exact (List.append_inj this (by rw [runOps_length, runOps_length])).2

/-- Calls that only look, in any interleaving. -/
theorem Steps.interleave_reads (schedule : List Nat) : ∀ (ts : Nat → Steps σ α) (s : σ), (∀ i, (ts i).Reads) →
    (Steps.interleave ts s schedule).2 = s ∧ (∀ i, ((Steps.interleave ts s schedule).1 i).run s = (ts i).run s) := by
  induction schedule with
  | nil => exact fun ts s _ => ⟨rfl, fun _ => rfl⟩
  | cons i rest ih =>
    intro ts s h
    have key : ((ts i).step s).2 = s ∧ ((ts i).step s).1.run s = (ts i).run s ∧ ((ts i).step s).1.Reads := by
      have := h i
      cases e : ts i with
      | ret a => exact ⟨rfl, rfl, trivial⟩
      | panic => exact ⟨rfl, rfl, trivial⟩
      | diverge => exact ⟨rfl, rfl, trivial⟩
      | act next upd =>
        rw [e] at this
        refine ⟨this.1 s, ?_, this.2 s⟩
        show (next s).run s = (next s).run (upd s)
        rw [this.1 s]
    obtain ⟨k1, k2, k3⟩ := key
    rw [Steps.interleave]
    simp only [k1]
    obtain ⟨a, b⟩ := ih (fun j => if j = i then ((ts i).step s).1 else ts j) s (fun j => by
      split
      · exact k3
      · exact h j)
    refine ⟨a, fun j => ?_⟩
    rw [b j]
    split
    · rename_i hj; rw [hj]; exact k2
    · rfl

end Stl4go
