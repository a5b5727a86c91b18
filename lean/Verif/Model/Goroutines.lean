import Verif.Model.Transform
import Verif.Model.Sort
import Verif.Model.HeapMem
import Verif.Model.BinarySearch
import Verif.Model.Lookup
import Verif.Model.Compute
/-!
# The functions that work on slices in place, as goroutines

`Model/Transform.lean`, `Model/Sort.lean`, `Model/HeapMem.lean` and others take a call as one step. Here a call is a `Thread`, which gives way to other goroutines before every read and
every write of an element. Memory is sequentially consistent, which Go promises to programs without data races only; C174 shows that there are none. Functions that allocate are
left out. Callbacks are pure functions here.
-/
namespace Stl4go
variable {T α β : Type}

/-- The rest of a goroutine: its next access to an element, as in `/repo/transform.go:73`, or its end. -/
inductive Thread (T α : Type) where
  | ret (a : α)
  | panic
  | diverge
  | load (p : Nat) (k : T → Thread T α)
  | store (p : Nat) (v : T) (k : Thread T α)

/-- Statements one after another (`/repo/transform.go:73`). -/
def Thread.bind : Thread T α → (α → Thread T β) → Thread T β
  | .ret a, f => f a
  | .panic, _ => .panic
  | .diverge, _ => .diverge
  | .load p k, f => .load p (fun v => (k v).bind f)
  | .store p v k, f => .store p v (k.bind f)

instance : Monad (Thread T) where
  pure := Thread.ret
  bind := Thread.bind

/-- All of it, while no other goroutine does anything: a call as elsewhere in the model (`/repo/transform.go:73`). -/
def Thread.run : Thread T α → GoM (Mem T) α
  | .ret a, m => .ok a m
  | .panic, m => .panic m
  | .diverge, _ => .diverge
  | .load p k, m => (k (m.cell p)).run m
  | .store p v k, m => k.run (m.write p [v])

/-- One access (`/repo/transform.go:73`). A goroutine that has ended does nothing. -/
def Thread.step : Thread T α → Mem T → Thread T α × Mem T
  | .load p k, m => (k (m.cell p), m)
  | .store p v k, m => (k, m.write p [v])
  | x, m => (x, m)

/-- Goroutines `ts` on one memory (`/repo/transform.go:73`, called by several): the scheduler lets them do one access each, in the order of the list. -/
def interleave (ts : Nat → Thread T α) (m : Mem T) : (schedule : List Nat) → (Nat → Thread T α) × Mem T
  | [] => (ts, m)
  | i :: rest =>
    let r := (ts i).step m
    interleave (fun j => if j = i then r.1 else ts j) r.2 rest

/-- `s[i]` (`/repo/vector.go:76`). -/
def Sl.getT (s : Sl) (i : Int) : Thread T T := if 0 ≤ i ∧ i < s.len then .load (s.off + i.toNat) .ret else .panic

/-- `s[i] = v` (`/repo/vector.go:82`). -/
def Sl.putT (s : Sl) (i : Int) (v : T) : Thread T Unit := if 0 ≤ i ∧ i < s.len then .store (s.off + i.toNat) v (.ret ()) else .panic

/-- `s[lo:hi]` (`/repo/vector.go:156`): does not access elements. -/
def Sl.sliceT (s : Sl) (lo hi : Int) : Thread T Sl :=
  if 0 ≤ lo ∧ lo ≤ hi ∧ hi ≤ s.cap then .ret { off := s.off + lo.toNat, len := (hi - lo).toNat, cap := s.cap - lo.toNat } else .panic

/-- `n` elements from address `p` on, read for `copy` (`/repo/vector.go:134`). -/
def loadsT : (p n : Nat) → Thread T (List T)
  | _, 0 => pure []
  | p, n + 1 => .load p (fun v => do let vs ← loadsT (p + 1) n; pure (v :: vs))

/-- Elements written from address `p` on by `copy` (`/repo/vector.go:134`). -/
def storesT : (p : Nat) → List T → Thread T Unit
  | _, [] => pure ()
  | p, v :: vs => .store p v (storesT (p + 1) vs)

/-- `copy(dst, src)` (`/repo/vector.go:134`). -/
def Sl.copyT (dst src : Sl) : Thread T Unit := do
  let xs ← loadsT src.off (min dst.len src.len)
  storesT dst.off xs

/-- Loop of `Fill` and of `FillPattern`, `/repo/transform.go:34-36` and `/repo/transform.go:50-52`. -/
def fillLoopT (a : Sl) : (fuel : Nat) → (j : Int) → Thread T Unit
  | 0, _ => .diverge
  | fuel + 1, j =>
    if j < a.len then do
      let d ← a.sliceT j a.len
      let s ← a.sliceT 0 j
      d.copyT s
      fillLoopT a fuel (wrap64 (j * 2))
    else pure ()

/-- `Fill`, `/repo/transform.go:24-37`. -/
def fillT (a : Sl) (v : T) : Thread T Unit :=
  if a.len = 0 then pure ()
  else do
    a.putT 0 v
    fillLoopT a (a.len + 1) 1

/-- `FillPattern`, `/repo/transform.go:42-53`. -/
def fillPatternT (a pattern : Sl) : Thread T Unit :=
  if pattern.len = 0 then .panic
  else do
    a.copyT pattern
    fillLoopT a (a.len + 1) pattern.len

/-- `FillZero` from go1.21 on, `/repo/transform_fillzero_clear.go:9-11`. -/
def fillZeroT [GoZero T] (a : Sl) : Thread T Unit := storesT a.off (List.replicate a.len GoZero.zero)

/-- Loop of `Transform`, `/repo/transform.go:72-74`. -/
def transformLoopT (a : Sl) (op : T → T) : (n i : Nat) → Thread T Unit
  | 0, _ => pure ()
  | n + 1, i => do
    let v ← a.getT i
    a.putT i (op v)
    transformLoopT a op n (i + 1)

/-- `Transform`, `/repo/transform.go:71-75`. -/
def transformT (a : Sl) (op : T → T) : Thread T Unit := transformLoopT a op a.len 0

/-- Loop of `Replace`, `/repo/transform.go:92-96`. -/
def replaceLoopT [GoEq T] (a : Sl) (old new : T) : (n i : Nat) → Thread T Unit
  | 0, _ => pure ()
  | n + 1, i => do
    let v ← a.getT i
    if GoEq.eq v old = true then do
      a.putT i new
      replaceLoopT a old new n (i + 1)
    else replaceLoopT a old new n (i + 1)

/-- `Replace`, `/repo/transform.go:91-97`. -/
def replaceT [GoEq T] (a : Sl) (old new : T) : Thread T Unit := replaceLoopT a old new a.len 0

/-- Loop of `Unique`, `/repo/transform.go:120-126`. -/
def uniqueLoopT [GoEq T] (a b : Sl) : (n k i : Nat) → (prev : T) → Thread T Nat
  | 0, _, i, _ => pure i
  | n + 1, k, i, prev => do
    let v ← b.getT k
    if GoEq.eq v prev = false then do
      a.putT i v
      uniqueLoopT a b n (k + 1) (i + 1) v
    else uniqueLoopT a b n (k + 1) i prev

/-- `Unique`, `/repo/transform.go:114-128`. -/
def uniqueT [GoEq T] (a : Sl) : Thread T Sl :=
  if a.len = 0 then pure a
  else do
    let prev ← a.getT 0
    let b ← a.sliceT 1 a.len
    let i ← uniqueLoopT a b b.len 0 1 prev
    a.sliceT 0 i

/-- Loop of `RemoveIf`, `/repo/transform.go:185-190`. -/
def removeIfLoopT (a : Sl) (cond : T → Bool) : (n k j : Nat) → Thread T Nat
  | 0, _, j => pure j
  | n + 1, k, j => do
    let v ← a.getT k
    if cond v = false then do
      a.putT j v
      removeIfLoopT a cond n (k + 1) (j + 1)
    else removeIfLoopT a cond n (k + 1) j

/-- `RemoveIf`, `/repo/transform.go:183-192`. -/
def removeIfT (a : Sl) (cond : T → Bool) : Thread T Sl := do
  let j ← removeIfLoopT a cond a.len 0 0
  a.sliceT 0 j

/-- The swap `a[i], a[j] = a[j], a[i]`, `/repo/transform.go:222`, `/repo/sort.go:92`, `/repo/heap.go:70`. -/
def swapT (a : Sl) (i j : Int) : Thread T Unit := do
  let y ← a.getT j
  let x ← a.getT i
  a.putT i y
  a.putT j x

/-- Loop of `Reverse`, `/repo/transform.go:221-223`. -/
def reverseLoopT (a : Sl) : (fuel : Nat) → (i j : Int) → Thread T Unit
  | 0, _, _ => .diverge
  | fuel + 1, i, j =>
    if i < j then do
      swapT a i j
      reverseLoopT a fuel (i + 1) (j - 1)
    else pure ()

/-- `Reverse`, `/repo/transform.go:220-224`. -/
def reverseT (a : Sl) : Thread T Unit := reverseLoopT a (a.len + 1) 0 (a.len - 1)

/-- `sort.Sort` or `sort.Stable` on a `funcSortable`, `/repo/sort.go:85-92`. -/
def sortProgT (e : Sl) (less : T → T → Bool) : SortProg → Thread T Unit
  | .done => pure ()
  | .less i j k => do
    let y ← e.getT i
    let z ← e.getT j
    sortProgT e less (k (less y z))
  | .swap i j k => do
    swapT e i j
    sortProgT e less k

/-- `SortFunc` and `StableSortFunc`, `/repo/sort.go:98-100` and `/repo/sort.go:106-108`. -/
def sortFuncT (sort : Nat → SortProg) (a : Sl) (less : T → T → Bool) : Thread T Unit := sortProgT a less (sort a.len)

/-- The choice of `j` inside the loop of `heapDownFunc`, `/repo/heap.go:187-190`. -/
def heapSmallerChildFuncT (less : T → T → Bool) (heap : Sl) (j1 n : Nat) : Thread T Nat :=
  if j1 + 1 < n then do
    let x ← heap.getT (j1 + 1 : Nat)
    let y ← heap.getT j1
    pure (if less x y then j1 + 1 else j1)
  else pure j1

/-- Loop of `heapDownFunc`, `/repo/heap.go:182-196`. -/
def heapDownFuncLoopT (less : T → T → Bool) : (fuel : Nat) → (heap : Sl) → (i n : Nat) → Thread T Nat
  | 0, _, _, _ => .diverge
  | fuel + 1, heap, i, n =>
    if 2 * i + 1 ≥ n then pure i
    else do
      let j ← heapSmallerChildFuncT less heap (2 * i + 1) n
      let x ← heap.getT j
      let y ← heap.getT i
      if !(less x y) then pure i
      else do
        swapT heap i j
        heapDownFuncLoopT less fuel heap j n

/-- Loop of `MakeHeapFunc`, `/repo/heap.go:110-112`. -/
def makeHeapFuncLoopT (less : T → T → Bool) (array : Sl) (n : Nat) : Nat → Thread T Unit
  | 0 => pure ()
  | i + 1 => do
    let _ ← heapDownFuncLoopT less (n + 1) array i n
    makeHeapFuncLoopT less array n i

/-- `MakeHeapFunc`, `/repo/heap.go:107-113`. -/
def makeHeapFuncT (array : Sl) (less : T → T → Bool) : Thread T Unit := makeHeapFuncLoopT less array array.len (array.len / 2)

/-- Loop of `Find`, `/repo/lookup.go:91-96`. -/
def findLoopT [GoEq T] (x : T) (a : Sl) : (n i : Nat) → Thread T (Int × Bool)
  | 0, _ => pure (-1, false)
  | n + 1, i => do
    let v ← a.getT i
    if GoEq.eq v x then pure ((i : Int), true) else findLoopT x a n (i + 1)

/-- `Find`, `/repo/lookup.go:90-97`. -/
def findT [GoEq T] (a : Sl) (x : T) : Thread T (Int × Bool) := findLoopT x a a.len 0

/-- Loop of `CountIf`, `/repo/compute.go:74-78`. -/
def countIfLoopT (pred : T → Bool) (a : Sl) : (n i c : Nat) → Thread T Nat
  | 0, _, c => pure c
  | n + 1, i, c => do
    let v ← a.getT i
    if pred v then countIfLoopT pred a n (i + 1) (c + 1) else countIfLoopT pred a n (i + 1) c

/-- `CountIf`, `/repo/compute.go:72-80`. -/
def countIfT (a : Sl) (pred : T → Bool) : Thread T Nat := countIfLoopT pred a a.len 0 0

/-- Loop of `LowerBoundFunc`, `/repo/binary_search.go:35-46`. -/
def lowerBoundFuncLoopT (a : Sl) (value : T) (less : T → T → Bool) : (fuel loc count : Nat) → Thread T Nat
  | 0, _, _ => .diverge
  | fuel + 1, loc, count =>
    if count > 0 then do
      let x ← a.getT ((loc + count / 2 : Nat) : Int)
      if less x value then lowerBoundFuncLoopT a value less fuel (loc + count / 2 + 1) (count - (count / 2 + 1))
      else lowerBoundFuncLoopT a value less fuel loc (count / 2)
    else pure loc

/-- `LowerBoundFunc`, `/repo/binary_search.go:32-48`. -/
def lowerBoundFuncT (a : Sl) (value : T) (less : T → T → Bool) : Thread T Nat := lowerBoundFuncLoopT a value less (a.len + 1) 0 a.len

/-- A call that a goroutine makes (`/repo/transform.go:71` and others). -/
inductive SliceCall (T : Type) where
  | fill (a : Sl) (v : T)
  | fillPattern (a pattern : Sl)
  | fillZero (a : Sl)
  | transform (a : Sl) (op : T → T)
  | replace (a : Sl) (old new : T)
  | unique (a : Sl)
  | removeIf (a : Sl) (cond : T → Bool)
  | reverse (a : Sl)
  | sort (alg : Nat → SortProg) (a : Sl) (less : T → T → Bool)
  | makeHeap (a : Sl) (less : T → T → Bool)
  | find (a : Sl) (x : T)
  | countIf (a : Sl) (pred : T → Bool)
  | lowerBound (a : Sl) (x : T) (less : T → T → Bool)

/-- What it returns (`/repo/transform.go:114`, `/repo/lookup.go:90`, `/repo/compute.go:72`). -/
inductive SliceRet where
  | unit
  | slice (s : Sl)
  | found (r : Int × Bool)
  | num (n : Nat)
deriving DecidableEq, Repr

/-- The goroutine that makes the call (`/repo/transform.go:71` and others). -/
def SliceCall.thread [GoEq T] [GoZero T] : SliceCall T → Thread T SliceRet
  | .fill a v => do fillT a v; pure .unit
  | .fillPattern a p => do fillPatternT a p; pure .unit
  | .fillZero a => do fillZeroT a; pure .unit
  | .transform a op => do transformT a op; pure .unit
  | .replace a old new => do replaceT a old new; pure .unit
  | .unique a => do let s ← uniqueT a; pure (.slice s)
  | .removeIf a cond => do let s ← removeIfT a cond; pure (.slice s)
  | .reverse a => do reverseT a; pure .unit
  | .sort alg a less => do sortFuncT alg a less; pure .unit
  | .makeHeap a less => do makeHeapFuncT a less; pure .unit
  | .find a x => do let r ← findT a x; pure (.found r)
  | .countIf a pred => do let n ← countIfT a pred; pure (.num n)
  | .lowerBound a x less => do let n ← lowerBoundFuncT a x less; pure (.num n)

/-- The same call taken as one step, by the functions of `Model/Transform.lean` and others (`/repo/transform.go:71` and others). -/
def SliceCall.call [GoEq T] [GoZero T] : SliceCall T → GoM (Mem T) SliceRet
  | .fill a v => do Stl4go.fill a v; pure .unit
  | .fillPattern a p => do Stl4go.fillPattern a p; pure .unit
  | .fillZero a => do Stl4go.fillZero a; pure .unit
  | .transform a op => do let _ ← Stl4go.transform a (fun (_ : Unit) v => ((), op v)) (); pure .unit
  | .replace a old new => do Stl4go.replace a old new; pure .unit
  | .unique a => do let s ← Stl4go.unique a; pure (.slice s)
  | .removeIf a cond => do let r ← Stl4go.removeIf a (fun (_ : Unit) v => ((), cond v)) (); pure (.slice r.2)
  | .reverse a => do Stl4go.reverse a; pure .unit
  | .sort alg a less => do sortFunc alg a less; pure .unit
  | .makeHeap a less => fun m =>
    match makeHeapFuncM a (fun x y => pure (less x y)) ({ mem := m, st := (), heap := a } : HS T Unit) with
    | .ok _ s => .ok .unit s.mem
    | .panic s => .panic s.mem
    | .diverge => .diverge
  | .find a x => fun m => .ok (.found (Stl4go.find (a.read m) x)) m
  | .countIf a pred => fun m => .ok (.num (Stl4go.countIf (a.read m) pred)) m
  | .lowerBound a x less => fun m =>
    match lowerBoundFunc (a.read m) x less with
    | .ret n => .ok (.num n) m
    | .panic => .panic m
    | .diverge => .diverge

end Stl4go
