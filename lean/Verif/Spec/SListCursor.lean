import Verif.Spec.SList
/-!
# Specification of iterators over single-linked lists that change

A sequence is the list of its elements, front first. An iterator goes through some elements that were removed from the sequence, and then
through the sequence from some position on. Operations on the sequence change this so that the iterator stays on its element.
-/
namespace Stl4go
variable {T : Type}

/-- What an iterator of an `SList` has ahead of it: first the removed elements `pre`, then the elements from index `pos` on; with
`pos = none` there is nothing after `pre`. -/
structure LCur (T : Type) where
  pre : List T := []
  pos : Option Nat := none
deriving DecidableEq

/-- An iterator of the sequence `s`, after the operation `op` on `s`. -/
def LCur.after (s : List T) (op : LOp T) (c : LCur T) : LCur T :=
  match c.pos with
  | none => c
  | some k => match op with
    | .make _ | .clear => ⟨c.pre ++ s.drop k, none⟩
    | .pushFront _ => ⟨c.pre, some (k + 1)⟩
    | .popFront =>
      if k = 0 then ⟨c.pre ++ s.take 1, if s.length ≤ 1 then none else some 0⟩
      else ⟨c.pre, some (k - 1)⟩
    | .reverse => ⟨c.pre, some (s.length - 1 - k)⟩
    | _ => c

/-- The elements the iterator has ahead of it, its own element first. -/
def LCur.rest (s : List T) (c : LCur T) : List T :=
  c.pre ++ match c.pos with
    | none => []
    | some k => s.drop k

/-- The iterator of all elements of `s`. -/
def LCur.start (s : List T) : LCur T := ⟨[], if s.length = 0 then none else some 0⟩

/-- One element further; `none` at the end. -/
def LCur.next (s : List T) (c : LCur T) : Option (LCur T) :=
  match c.pre with
  | _ :: p => some { c with pre := p }
  | [] => match c.pos with
    | none => none
    | some k => some ⟨[], if k + 1 < s.length then some (k + 1) else none⟩

/-! ## Histories with any number of lists and iterators -/

inductive LCOp (T : Type) where
  | list (i : Nat) (op : LOp T)   -- an operation on list `i`
  | iterate (c i : Nat)           -- `c = lᵢ.Iterate()`
  | isNotEnd (c : Nat)            -- `c.IsNotEnd()`
  | value (c : Nat)               -- `c.Value()`
  | next (c : Nat)                -- `c.MoveToNext()`
  | set (c : Nat) (v : T)         -- `*c.Pointer() = v`

/-- Lists and iterators; an iterator is kept with the list it was made from. -/
structure LCSpec (T : Type) where
  lists : Nat → List T
  curs : Nat → Nat × LCur T

/-- All lists are zero values; all iterators are at the end. -/
def LCSpec.init : LCSpec T := ⟨fun _ => [], fun _ => (0, {})⟩

/-- Replace iterator `c`. -/
def LCSpec.put (w : LCSpec T) (c i : Nat) (d : LCur T) : LCSpec T := { w with curs := fun x => if x = c then (i, d) else w.curs x }

/-- One step; `none` where the specification says nothing: writing to an element that is no longer in its list. -/
def LCSpec.step (w : LCSpec T) : LCOp T → Option (DObs T × LCSpec T)
  | .list i op => some ((LSeq.step (w.lists i) op).1,
      { lists := fun j => if j = i then (LSeq.step (w.lists i) op).2 else w.lists j
        curs := fun c => if (w.curs c).1 = i then (i, (w.curs c).2.after (w.lists i) op) else w.curs c })
  | .iterate c i => some (.unit, w.put c i (LCur.start (w.lists i)))
  | .isNotEnd c => some (.flag (!((w.curs c).2.rest (w.lists (w.curs c).1)).isEmpty), w)
  | .value c => match (w.curs c).2.rest (w.lists (w.curs c).1) with
    | v :: _ => some (.val v, w)
    | [] => some (.panicked, w)
  | .next c => match (w.curs c).2.next (w.lists (w.curs c).1) with
    | some d => some (.unit, w.put c (w.curs c).1 d)
    | none => some (.panicked, w)
  | .set c v => match (w.curs c).2.pre with
    | _ :: _ => none
    | [] => match (w.curs c).2.pos with
      | none => some (.panicked, w)
      | some k => some (.unit, { w with lists := fun j => if j = (w.curs c).1 then (w.lists j).set k v else w.lists j })

/-- A history: what is observed, if the specification settles it. -/
def LCSpec.run : LCSpec T → List (LCOp T) → Option (List (DObs T) × LCSpec T)
  | w, [] => some ([], w)
  | w, op :: ops =>
    match w.step op with
    | none => none
    | some (o, w) =>
      match LCSpec.run w ops with
      | none => none
      | some (os, w) => some (o :: os, w)

/-! ## Running the model -/

/-- List variables over one heap, and iterators. -/
structure LCWorld (T : Type) where
  heap : List (LNode T)
  vars : Nat → LL
  curs : Nat → LIter

def LCWorld.init : LCWorld T := ⟨[], fun _ => {}, fun _ => ⟨none⟩⟩

/-- The state of a call on list `i`. -/
def LCWorld.on (w : LCWorld T) (i : Nat) : LS T := ⟨w.heap, w.vars i⟩

/-- The world after a call on list `i` left the state `st`. -/
def LCWorld.back (w : LCWorld T) (i : Nat) (st : LS T) : LCWorld T :=
  { w with heap := st.heap, vars := fun j => if j = i then st.l else w.vars j }

/-- The state of a call on an iterator, which does not know any list. -/
def LCWorld.free (w : LCWorld T) : LS T := ⟨w.heap, {}⟩

/-- One step of the model. -/
def LCWorld.step [GoZero T] (w : LCWorld T) : LCOp T → DObs T × LCWorld T
  | .list i op => let r := LL.exec (w.on i) op; (r.1, w.back i r.2)
  | .iterate c i => match LL.iterate (w.on i) with
    | .ok it st => (.unit, { w.back i st with curs := fun x => if x = c then it else w.curs x })
    | .panic st => (.panicked, w.back i st)
    | .diverge => (.hung, w)
  | .isNotEnd c => (.flag (w.curs c).isNotEnd, w)
  | .value c => let r := LS.observe .val (w.curs c).value w.free; (r.1, { w with heap := r.2.heap })
  | .next c => match (w.curs c).moveToNext w.free with
    | .ok it st => (.unit, { w with heap := st.heap, curs := fun x => if x = c then it else w.curs x })
    | .panic st => (.panicked, { w with heap := st.heap })
    | .diverge => (.hung, w)
  | .set c v => let r := LS.observe (fun _ => .unit) (LS.setVal (w.curs c).node v) w.free; (r.1, { w with heap := r.2.heap })

/-- A history on the model. -/
def LCWorld.run [GoZero T] : LCWorld T → List (LCOp T) → List (DObs T) × LCWorld T
  | w, [] => ([], w)
  | w, op :: ops =>
    let r := w.step op
    let rest := LCWorld.run r.2 ops
    (r.1 :: rest.1, rest.2)

end Stl4go
