import Verif.Spec.SkipList
/-!
# Specification of iterators over sorted maps that change

A map is the list of its entries in key order. The entries that were removed are kept in a second list, in the order of their removal: an
iterator that was on them can still go through them. An iterator first goes through some removed entries, then through the map from some key
on. Nothing here refers to nodes, levels or links.
-/
namespace Stl4go
variable {K V : Type}

/-- Which entry something points to: the one in the map with this key, or a removed one. -/
inductive SPlace (K : Type) where
  | live (k : K)
  | dead (i : Nat)
deriving DecidableEq

/-- What an iterator has ahead of it: the removed entries `gone`, then the entries of the map from the key `start` on (nothing if `none`).
It is at its end when it is at `stop`. -/
structure SCur (K : Type) where
  gone : List Nat := []
  start : Option K := none
  stop : Option (SPlace K) := none

/-- The keys are equivalent. -/
def sameKey (less : K → K → Bool) (a b : K) : Bool := !(less a b) && !(less b a)

/-- The first key of the map after `k`. -/
def SMap.succ (less : K → K → Bool) (m : List (K × V)) (k : K) : Option K := (m.find? (fun e => less k e.1)).map (·.1)

/-- The number of entries before `k`. -/
def SMap.rank (less : K → K → Bool) (m : List (K × V)) (k : K) : Nat := (m.filter (fun e => less e.1 k)).length

/-- The entries that an operation removes. -/
def SMap.removes (less : K → K → Bool) (m : List (K × V)) : SMOp K V → List (K × V)
  | .remove k => m.filter (fun e => sameKey less k e.1)
  | .clear => m
  | _ => []

/-- What points to an entry still points to it after an operation; `n` entries were removed before. -/
def SPlace.after (less : K → K → Bool) (m : List (K × V)) (n : Nat) (op : SMOp K V) : SPlace K → SPlace K
  | .dead i => .dead i
  | .live s => match op with
    | .remove k => if sameKey less k s then .dead n else .live s
    | .clear => .dead (n + SMap.rank less m s)
    | _ => .live s

/-- What an iterator has ahead of it after an operation: the same entries if they stay, no new ones before `start`. -/
def SCur.after (less : K → K → Bool) (m : List (K × V)) (n : Nat) (op : SMOp K V) (c : SCur K) : SCur K :=
  { stop := c.stop.map (SPlace.after less m n op)
    gone := match c.start, op with
      | some s, .remove k => if sameKey less k s then c.gone ++ [n] else c.gone
      | some s, .clear => c.gone ++ List.range' (n + SMap.rank less m s) (m.length - SMap.rank less m s)
      | _, _ => c.gone
    start := match c.start, op with
      | some s, .remove k => if sameKey less k s then SMap.succ less m s else some s
      | some _, .clear => none
      | s, _ => s }

/-- The entry the iterator is on. -/
def SCur.place (c : SCur K) : Option (SPlace K) :=
  match c.gone with
  | i :: _ => some (.dead i)
  | [] => c.start.map .live

/-- One entry further; `none` if there is no entry to move on from. -/
def SCur.next (less : K → K → Bool) (m : List (K × V)) (c : SCur K) : Option (SCur K) :=
  match c.gone with
  | _ :: g => some { c with gone := g }
  | [] => match c.start with
    | none => none
    | some k => some { c with start := SMap.succ less m k }

/-- Two pointers are equal. -/
def samePlace (less : K → K → Bool) : Option (SPlace K) → Option (SPlace K) → Bool
  | none, none => true
  | some (.live a), some (.live b) => sameKey less a b
  | some (.dead i), some (.dead j) => decide (i = j)
  | _, _ => false

/-! ## Histories with any number of iterators and pointers -/

inductive SCOp (K V : Type) where
  | map (rnd : Nat) (op : SMOp K V)      -- an operation on the map; `rnd` is what the random generator would return
  | iterate (c : Nat)                    -- `c = sl.Iterate()`
  | lowerBound (c : Nat) (k : K)         -- `c = sl.LowerBound(k)`
  | upperBound (c : Nat) (k : K)         -- `c = sl.UpperBound(k)`
  | findRange (c : Nat) (a b : K)        -- `c = sl.FindRange(a, b)`
  | isNotEnd (c : Nat)                   -- `c.IsNotEnd()`
  | key (c : Nat)                        -- `c.Key()`
  | value (c : Nat)                      -- `c.Value()`
  | next (c : Nat)                       -- `c.MoveToNext()`
  | pointer (p c : Nat)                  -- `p = c.Pointer()`
  | find (p : Nat) (k : K)               -- `p = sl.Find(k)`, then `p != nil`
  | read (p : Nat)                       -- `*p`
  | write (p : Nat) (v : V)              -- `*p = v`

/-- What the client observes. -/
inductive SCObs (K V : Type) where
  | of (o : SMObs K V)
  | key (k : K)
deriving DecidableEq

/-- The map, the removed entries, the iterators and the pointers to values. -/
structure SCSpec (K V : Type) where
  map : List (K × V)
  removed : List (K × V)
  curs : Nat → SCur K
  ptrs : Nat → Option (SPlace K)

/-- An empty map; all iterators are at the end and all pointers are nil. -/
def SCSpec.init : SCSpec K V := ⟨[], [], fun _ => {}, fun _ => none⟩

/-- The entry at a place. -/
def SCSpec.entry (less : K → K → Bool) (w : SCSpec K V) : SPlace K → Option (K × V)
  | .live k => w.map.find? (fun e => sameKey less k e.1)
  | .dead i => w.removed[i]?

/-- Overwrite the value at a place. -/
def SCSpec.assign (less : K → K → Bool) (w : SCSpec K V) (v : V) : SPlace K → SCSpec K V
  | .live k => { w with map := w.map.map (fun e => if sameKey less k e.1 then (e.1, v) else e) }
  | .dead i => { w with removed := w.removed.modify i (fun e => (e.1, v)) }

/-- Replace iterator `c`. -/
def SCSpec.put (w : SCSpec K V) (c : Nat) (d : SCur K) : SCSpec K V := { w with curs := fun x => if x = c then d else w.curs x }

/-- Replace pointer `p`. -/
def SCSpec.point (w : SCSpec K V) (p : Nat) (d : Option (SPlace K)) : SCSpec K V := { w with ptrs := fun x => if x = p then d else w.ptrs x }

/-- The first key of the map that is not before `k`. -/
def SMap.first (less : K → K → Bool) (m : List (K × V)) (k : K) : Option K := (m.find? (fun e => !(less e.1 k))).map (·.1)

/-- The entries ahead of an iterator. -/
def SCSpec.rest (less : K → K → Bool) (w : SCSpec K V) (c : SCur K) : List (K × V) :=
  c.gone.filterMap (w.removed[·]?) ++ (match c.start with
    | none => []
    | some s => w.map.filter (fun e => !(less e.1 s)))

/-- One operation on the specification. -/
def SCSpec.step (less : K → K → Bool) (w : SCSpec K V) : SCOp K V → SCObs K V × SCSpec K V
  | .map _ op => (.of (SMap.step less w.map op).1,
      { map := (SMap.step less w.map op).2
        removed := w.removed ++ SMap.removes less w.map op
        curs := fun c => (w.curs c).after less w.map w.removed.length op
        ptrs := fun p => (w.ptrs p).map (SPlace.after less w.map w.removed.length op) })
  | .iterate c => (.of .unit, w.put c { start := w.map.head?.map (·.1) })
  | .lowerBound c k => (.of .unit, w.put c { start := SMap.first less w.map k })
  | .upperBound c k => (.of .unit, w.put c { start := SMap.succ less w.map k })
  | .findRange c a b => (.of .unit, w.put c { start := SMap.first less w.map a, stop := (SMap.succ less w.map b).map .live })
  | .isNotEnd c => (.of (.flag (!samePlace less (w.curs c).place (w.curs c).stop)), w)
  | .key c => match (w.curs c).place.bind (w.entry less) with
    | some e => (.key e.1, w)
    | none => (.of .panicked, w)
  | .value c => match (w.curs c).place.bind (w.entry less) with
    | some e => (.of (.val (some e.2)), w)
    | none => (.of .panicked, w)
  | .next c => match (w.curs c).next less w.map with
    | some d => (.of .unit, w.put c d)
    | none => (.of .panicked, w)
  | .pointer p c => match (w.curs c).place with
    | some d => (.of .unit, w.point p (some d))
    | none => (.of .panicked, w)
  | .find p k => (.of (.flag (SMap.find less k w.map).isSome),
      w.point p (if (SMap.find less k w.map).isSome then (SMap.first less w.map k).map .live else none))
  | .read p => match (w.ptrs p).bind (w.entry less) with
    | some e => (.of (.val (some e.2)), w)
    | none => (.of .panicked, w)
  | .write p v => match w.ptrs p with
    | some d => (.of .unit, w.assign less v d)
    | none => (.of .panicked, w)

/-- A history. -/
def SCSpec.run (less : K → K → Bool) : SCSpec K V → List (SCOp K V) → List (SCObs K V) × SCSpec K V
  | w, [] => ([], w)
  | w, op :: ops =>
    let r := w.step less op
    let rest := SCSpec.run less r.2 ops
    (r.1 :: rest.1, rest.2)

/-- The operation assigns to iterator `c`. -/
def SCOp.setsCur (c : Nat) : SCOp K V → Bool
  | .iterate x | .lowerBound x _ | .upperBound x _ | .findRange x _ _ => decide (x = c)
  | _ => false

/-- The operation makes an iterator `c` that starts at `q` or before. -/
def SCOp.startsBefore (less : K → K → Bool) (c : Nat) (q : K) : SCOp K V → Bool
  | .iterate x => decide (x = c)
  | .lowerBound x k => decide (x = c) && !(less q k)
  | .upperBound x k => decide (x = c) && less k q
  | .findRange x a _ => decide (x = c) && !(less q a)
  | _ => false

/-- The operation removes key `q` from the map. -/
def SCOp.removesKey (less : K → K → Bool) (q : K) : SCOp K V → Bool
  | .map _ (.remove k) => sameKey less k q
  | .map _ .clear => true
  | _ => false

/-- The operation moves iterator `c` on. -/
def SCOp.moves (c : Nat) : SCOp K V → Bool
  | .next x => decide (x = c)
  | _ => false

/-- The operation is an `Insert`. -/
def SCOp.isInsert : SCOp K V → Bool
  | .map _ (.insert _ _) => true
  | _ => false

/-- The call returned and had no result. -/
def SCObs.isUnit : SCObs K V → Bool
  | .of .unit => true
  | _ => false

/-- How often iterator `c` was moved on in a history with these observations. -/
def moveCount (c : Nat) (ops : List (SCOp K V)) (os : List (SCObs K V)) : Nat :=
  (ops.zip os).countP (fun x => x.1.moves c && x.2.isUnit)

/-- The operation assigns to pointer `p`. -/
def SCOp.setsPtr (p : Nat) : SCOp K V → Bool
  | .pointer x _ | .find x _ => decide (x = p)
  | _ => false

/-! ## Running the model -/

/-- A skip list, iterators and pointers to values (a pointer to a value is the address of its node). -/
structure SCWorld (K V : Type) where
  sl : SL K V
  curs : Nat → SLIter
  ptrs : Nat → Option Nat

def SCWorld.init : SCWorld K V := ⟨newSkipList, fun _ => ⟨none, none⟩, fun _ => none⟩

/-- What a call shows: its result, or that it panicked or hung; then nothing else has changed. -/
def SCWorld.seen {α : Type} (w : SCWorld K V) (r : Outcome α) (f : α → SCObs K V × SCWorld K V) : SCObs K V × SCWorld K V :=
  match r with
  | .ret a => f a
  | .panic => (.of .panicked, w)
  | .diverge => (.of .hung, w)

def SCWorld.put (w : SCWorld K V) (c : Nat) (it : SLIter) : SCWorld K V := { w with curs := fun x => if x = c then it else w.curs x }

def SCWorld.point (w : SCWorld K V) (p : Nat) (d : Option Nat) : SCWorld K V := { w with ptrs := fun x => if x = p then d else w.ptrs x }

/-- Dereference a pointer to a value: nil panics. -/
def derefPtr {α : Type} (p : Option Nat) (f : Nat → Outcome α) : Outcome α :=
  match p with
  | some p => f p
  | none => .panic

/-- One step of the model. -/
def SCWorld.step (impl : SLImpl K) (w : SCWorld K V) : SCOp K V → SCObs K V × SCWorld K V
  | .map rnd op => w.seen (w.sl.exec impl rnd op) (fun r => (.of r.2, { w with sl := r.1 }))
  | .iterate c => w.seen w.sl.iterate (fun it => (.of .unit, w.put c it))
  | .lowerBound c k => w.seen (w.sl.lowerBoundIter impl k) (fun it => (.of .unit, w.put c it))
  | .upperBound c k => w.seen (w.sl.upperBoundIter impl k) (fun it => (.of .unit, w.put c it))
  | .findRange c a b => w.seen (w.sl.findRange impl a b) (fun it => (.of .unit, w.put c it))
  | .isNotEnd c => (.of (.flag (w.curs c).isNotEnd), w)
  | .key c => w.seen ((w.curs c).key w.sl) (fun k => (.key k, w))
  | .value c => w.seen ((w.curs c).value w.sl) (fun v => (.of (.val (some v)), w))
  | .next c => w.seen ((w.curs c).moveToNext w.sl) (fun it => (.of .unit, w.put c it))
  | .pointer p c => w.seen ((w.curs c).deref w.sl) (fun _ => (.of .unit, w.point p (w.curs c).node))
  | .find p k => w.seen (w.sl.find impl k) (fun d => (.of (.flag d.isSome), w.point p d))
  | .read p => w.seen (derefPtr (w.ptrs p) w.sl.readPtr) (fun v => (.of (.val (some v)), w))
  | .write p v => w.seen (derefPtr (w.ptrs p) (fun d => w.sl.setValue d v)) (fun sl => (.of .unit, { w with sl := sl }))

/-- A history on the model. -/
def SCWorld.run (impl : SLImpl K) : SCWorld K V → List (SCOp K V) → List (SCObs K V) × SCWorld K V
  | w, [] => ([], w)
  | w, op :: ops =>
    let r := w.step impl op
    let rest := SCWorld.run impl r.2 ops
    (r.1 :: rest.1, rest.2)

/-- A client that removes a range: `for it.IsNotEnd() { k := it.Key(); sl.Remove(k); it.MoveToNext() }`, or, if `early`, with
`it.MoveToNext(); sl.Remove(k)`. It panics as soon as a call does. -/
def SCWorld.eraseLoop (impl : SLImpl K) (early : Bool) (c : Nat) : (fuel : Nat) → SCWorld K V → Outcome (SCWorld K V)
  | 0, _ => .diverge
  | fuel + 1, w =>
    match (w.step impl (.isNotEnd c)).1 with
    | .of (.flag false) => .ret w
    | .of (.flag true) =>
      match (w.step impl (.key c)).1 with
      | .key k =>
        if early then
          let r := w.step impl (.next c)
          match r.1, (r.2.step impl (.map 0 (.remove k))).1 with
          | .of .unit, .of (.flag _) => SCWorld.eraseLoop impl early c fuel (r.2.step impl (.map 0 (.remove k))).2
          | _, _ => .panic
        else
          let r := w.step impl (.map 0 (.remove k))
          match r.1, (r.2.step impl (.next c)).1 with
          | .of (.flag _), .of .unit => SCWorld.eraseLoop impl early c fuel (r.2.step impl (.next c)).2
          | _, _ => .panic
      | _ => .panic
    | _ => .panic

end Stl4go
