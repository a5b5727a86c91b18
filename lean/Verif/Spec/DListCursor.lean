import Verif.Spec.Deque
/-!
# Specification of iterators over lists that change

A deque is the list of its elements, front first; an iterator is a position in it. Operations on the list move the position so that the
iterator stays on its element. When its element is taken off the list the iterator does not fail: the spec says what it shows then.
-/
namespace Stl4go
variable {T : Type}

/-- What an iterator of a `DList` stands on. -/
inductive DCur (T : Type) where
  | at (k : Nat)                    -- the element with index `k`; the end if `k` is the length
  | left (v : T) (rest : List T)    -- `v`, removed by `Clear`; the elements removed behind it are `rest`
  | popped (v : T)                  -- `v`, removed by a pop
  | nil                             -- a nil pointer
  | dead                            -- the list variable was assigned a new list
deriving DecidableEq

/-- A list: its elements, and whether an element was ever pushed. -/
structure CList (T : Type) where
  items : List T := []
  born : Bool := false

/-- Whether the list was ever pushed to, after an operation. -/
def CList.bornAfter (born : Bool) : DOp T → Bool
  | .make vs => !vs.isEmpty
  | .pushFront _ | .pushBack _ => true
  | _ => born

/-- The list after an operation. -/
def CList.after [GoZero T] (d : CList T) (op : DOp T) : CList T := ⟨(Deque.step d.items op).2, CList.bornAfter d.born op⟩

/-- Where an iterator on the elements `s` stands after the operation `op` on them. -/
def DCur.after (s : List T) (op : DOp T) : DCur T → DCur T
  | .at k => match op with
    | .make _ => .dead
    | .pushFront _ => .at (k + 1)
    | .pushBack _ => if k < s.length then .at k else .at (k + 1)
    | .popFront | .tryPopFront => match s with
      | [] => .at k
      | v :: _ => if k = 0 then .popped v else .at (k - 1)
    | .popBack | .tryPopBack => match s.getLast? with
      | none => .at k
      | some v => if k + 1 = s.length then .popped v else if k = s.length then .at (k - 1) else .at k
    | .clear => match s.drop k with
      | [] => .at 0
      | v :: rest => .left v rest
    | _ => .at k
  | c => match op with
    | .make _ => .dead
    | _ => c

/-- What a loop over the rest of the iteration shows, if it gets to the end; `s` are the elements of the list now. -/
def DCur.rest (s : List T) : DCur T → Option (List T)
  | .at k => some (s.drop k)
  | .left v rest => some (v :: rest)
  | _ => none

/-! ## Histories with any number of lists and iterators -/

inductive COp (T : Type) where
  | list (i : Nat) (op : DOp T)   -- an operation on list `i`
  | iterate (c i : Nat)           -- `c = lᵢ.Iterate()`
  | isNotEnd (c : Nat)            -- `c.IsNotEnd()`
  | value (c : Nat)               -- `c.Value()`
  | next (c : Nat)                -- `c.MoveToNext()`
  | set (c : Nat) (v : T)         -- `*c.Pointer() = v`

/-- Lists and iterators; an iterator is kept with the list it was made from. -/
structure CSpec (T : Type) where
  lists : Nat → CList T
  curs : Nat → Nat × DCur T

/-- All lists are zero values; no iterator exists yet. -/
def CSpec.init : CSpec T := ⟨fun _ => {}, fun _ => (0, .dead)⟩

/-- Replace iterator `c`. -/
def CSpec.put (w : CSpec T) (c i : Nat) (d : DCur T) : CSpec T := { w with curs := fun x => if x = c then (i, d) else w.curs x }

/-- One step; `none` where the specification says nothing: reading or writing at the end, writing to an element that is no longer in the
list, any use of an iterator whose list variable was assigned a new list. -/
def CSpec.step [GoZero T] (w : CSpec T) : COp T → Option (DObs T × CSpec T)
  | .list i op => some ((Deque.step (w.lists i).items op).1,
      { lists := fun j => if j = i then (w.lists i).after op else w.lists j
        curs := fun c => if (w.curs c).1 = i then (i, (w.curs c).2.after (w.lists i).items op) else w.curs c })
  | .iterate c i => some (.unit, w.put c i (if (w.lists i).born then .at 0 else .nil))
  | .isNotEnd c => match (w.curs c).2 with
    | .at k => some (.flag (decide (k < (w.lists (w.curs c).1).items.length)), w)
    | .left _ _ => some (.flag true, w)
    | .popped _ => some (.flag true, w)
    | .nil => some (.flag (w.lists (w.curs c).1).born, w)
    | .dead => none
  | .value c => match (w.curs c).2 with
    | .at k => match (w.lists (w.curs c).1).items[k]? with
      | some v => some (.val v, w)
      | none => none
    | .left v _ => some (.val v, w)
    | .popped v => some (.val v, w)
    | .nil => some (.panicked, w)
    | .dead => none
  | .next c => match (w.curs c).2 with
    | .at k =>
      if k < (w.lists (w.curs c).1).items.length then some (.unit, w.put c (w.curs c).1 (.at (k + 1)))
      else some (.unit, w.put c (w.curs c).1 (.at 0))
    | .left _ [] => some (.unit, w.put c (w.curs c).1 (.at (w.lists (w.curs c).1).items.length))
    | .left _ (v :: rest) => some (.unit, w.put c (w.curs c).1 (.left v rest))
    | .popped _ => some (.unit, w.put c (w.curs c).1 .nil)
    | .nil => some (.panicked, w)
    | .dead => none
  | .set c v => match (w.curs c).2 with
    | .at k =>
      if k < (w.lists (w.curs c).1).items.length then
        some (.unit, { w with lists := fun j => if j = (w.curs c).1 then
          { w.lists j with items := (w.lists j).items.set k v } else w.lists j })
      else none
    | .nil => some (.panicked, w)
    | _ => none

/-- A history: what is observed, if the specification settles it. -/
def CSpec.run [GoZero T] : CSpec T → List (COp T) → Option (List (DObs T) × CSpec T)
  | w, [] => some ([], w)
  | w, op :: ops =>
    match w.step op with
    | none => none
    | some (o, w) =>
      match CSpec.run w ops with
      | none => none
      | some (os, w) => some (o :: os, w)

/-- No element is popped, and no iterator is made of a list that was never pushed to; `seen` are the lists already pushed to. -/
def Careful (seen : Nat → Bool) : List (COp T) → Bool
  | [] => true
  | .list i op :: ops => (match op with
    | .popFront | .popBack | .tryPopFront | .tryPopBack => false
    | _ => true) && Careful (fun j => if j = i then CList.bornAfter (seen j) op else seen j) ops
  | .iterate _ i :: ops => seen i && Careful seen ops
  | _ :: ops => Careful seen ops

/-! ## Running the model -/

/-- List variables over one heap, and iterators. -/
structure CWorld (T : Type) where
  heap : List (DNode T)
  vars : Nat → DL
  curs : Nat → Nat × DIter

def CWorld.init : CWorld T := ⟨[], fun _ => {}, fun _ => (0, ⟨none⟩)⟩

/-- The state of a call on list `i`. -/
def CWorld.on (w : CWorld T) (i : Nat) : DS T := ⟨w.heap, w.vars i⟩

/-- The world after a call on list `i` left the state `st`. -/
def CWorld.back (w : CWorld T) (i : Nat) (st : DS T) : CWorld T :=
  { w with heap := st.heap, vars := fun j => if j = i then st.l else w.vars j }

/-- The world after a call on list `i` that gives a new iterator. -/
def CWorld.move (w : CWorld T) (c i : Nat) (m : GoM (DS T) DIter) : DObs T × CWorld T :=
  match m (w.on i) with
  | .ok it st => (.unit, { w.back i st with curs := fun x => if x = c then (i, it) else w.curs x })
  | .panic st => (.panicked, w.back i st)
  | .diverge => (.hung, w)

/-- One step of the model. -/
def CWorld.step [GoZero T] (w : CWorld T) : COp T → DObs T × CWorld T
  | .list i op => let r := DL.exec (w.on i) op; (r.1, w.back i r.2)
  | .iterate c i => w.move c i DL.iterate
  | .isNotEnd c => let r := DS.observe .flag (w.curs c).2.isNotEnd (w.on (w.curs c).1); (r.1, w.back (w.curs c).1 r.2)
  | .value c => let r := DS.observe .val (w.curs c).2.value (w.on (w.curs c).1); (r.1, w.back (w.curs c).1 r.2)
  | .next c => w.move c (w.curs c).1 (w.curs c).2.moveToNext
  | .set c v => let r := DS.observe (fun _ => .unit) (DS.setVal (w.curs c).2.node v) (w.on (w.curs c).1); (r.1, w.back (w.curs c).1 r.2)

/-- A history on the model. -/
def CWorld.run [GoZero T] : CWorld T → List (COp T) → List (DObs T) × CWorld T
  | w, [] => ([], w)
  | w, op :: ops =>
    let r := w.step op
    let rest := CWorld.run r.2 ops
    (r.1 :: rest.1, rest.2)

end Stl4go
