import Verif.Proofs.Allocates
/-!
# Property C182: what calls allocate

For every state, also one that breaks the invariants, and for every comparison function and callback: how many cells of backing arrays, or nodes, a call allocates. Functions that work in place allocate nothing, those that return a
copy allocate it once, and the lists allocate one node per element. `Makes μ k x` says `k` exactly, and at most `k` if the call panics.
The callbacks are Go code with a state; they are assumed not to allocate cells themselves.
-/
namespace Stl4go
variable {σ T R ρ τ K V : Type}

/-- C182, slices: the functions that change a slice in place allocate nothing, whatever the slice, and whatever algorithm the package sort uses. -/
theorem C182_slices [GoOrd T] [GoZero T] (a b : Sl) (v w : T) (draws : List (Nat × Nat)) (sort : Nat → SortProg) (less : T → T → Bool) :
    Makes memTop 0 (fill a v) ∧ Makes memTop 0 (fillPattern a b : GoM (Mem T) Unit) ∧ Makes memTop 0 (fillZero a : GoM (Mem T) Unit) ∧ Makes memTop 0 (fillZeroOld a : GoM (Mem T) Unit) ∧
    Makes memTop 0 (replace a v w) ∧ Makes memTop 0 (unique a : GoM (Mem T) Sl) ∧ Makes memTop 0 (remove a v) ∧ Makes memTop 0 (reverse a : GoM (Mem T) Unit) ∧ Makes memTop 0 (shuffle a draws : GoM (Mem T) Unit) ∧
    Makes memTop 0 (sortAsc sort a : GoM (Mem T) Unit) ∧ Makes memTop 0 (stableSort sort a : GoM (Mem T) Unit) ∧ Makes memTop 0 (descSort sort a : GoM (Mem T) Unit) ∧
    Makes memTop 0 (descStableSort sort a : GoM (Mem T) Unit) ∧ Makes memTop 0 (sortFunc sort a less) ∧ Makes memTop 0 (stableSortFunc sort a less) :=
  have hs : Makes memTop 0 (goSort sort (funcSortable a less)) :=
    goSort_makes _ _ (Makes.pure _) (fun _ _ => (Sl.get_makes _ _).bind fun _ => (Sl.get_makes _ _).bind fun _ => Makes.pure _) (fun _ _ => sortSwap_makes _ _ _)
  ⟨fill_makes a v, fillPattern_makes a b, Sl.clear_makes a, fill_makes a _, replaceLoop_makes _ _ _ _ _, unique_makes a, (removeLoop_makes _ _ _ _ _).bind fun _ => Sl.slice_makes _ _ _, reverseLoop_makes _ _ _ _,
    shuffle_makes a draws, ascSlice_makes sort a, ascSlice_makes sort a, descSlice_makes sort a, descSlice_makes sort a, hs, hs⟩

/-- C182, callbacks: neither do the functions with callbacks, if the callbacks do not. -/
theorem C182_callbacks (a : Sl) (v : T) {p : T → GoM (CS T ρ) Bool} {g : GoM (CS T ρ) T} {op : T → GoM (CS T ρ) T} {less : T → T → GoM (CS T ρ) Bool} {cb : T → GoM (CS T ρ) Unit}
    {mc : Nat → GoM (CS T ρ) Unit} {mp : Nat → GoM (CS T ρ) Bool} (hp : ∀ x, Makes csTop 0 (p x)) (hg : Makes csTop 0 g) (ho : ∀ x, Makes csTop 0 (op x)) (hl : ∀ x y, Makes csTop 0 (less x y))
    (hc : ∀ x, Makes csTop 0 (cb x)) (hmc : ∀ x, Makes csTop 0 (mc x)) (hmp : ∀ x, Makes csTop 0 (mp x)) :
    Makes csTop 0 (findIfC a p) ∧ Makes csTop 0 (allOfC a p) ∧ Makes csTop 0 (anyOfC a p) ∧ Makes csTop 0 (noneOfC a p) ∧ Makes csTop 0 (countIfC a p) ∧ Makes csTop 0 (generateC a g) ∧ Makes csTop 0 (transformC a op) ∧
    Makes csTop 0 (replaceIfC a p v) ∧ Makes csTop 0 (removeIfC a p) ∧ Makes csTop 0 (lowerBoundFuncE a v less) ∧ Makes csTop 0 (upperBoundFuncE a v less) ∧ Makes csTop 0 (binarySearchFuncE a v less) ∧
    Makes csTop 0 (Vec.forEachC a cb) ∧ Makes csTop 0 (Vec.forEachIfC a p) ∧ Makes csTop 0 (Vec.forEachMutableC a mc) ∧ Makes csTop 0 (Vec.forEachMutableIfC a mp) :=
  ⟨findIfLoopC_makes hp a _ _, allOfLoopC_makes hp a _ _, anyOfLoopC_makes hp a _ _, (anyOfLoopC_makes hp a _ _).bind fun _ => Makes.pure _, countIfLoopC_makes hp a _ _ _, generateLoopC_makes hg a _ _,
    transformLoopC_makes ho a _ _, replaceIfLoopC_makes hp a v _ _, (removeIfLoopC_makes hp a _ _ _).bind fun _ => CS.on_makes (Sl.slice_makes _ _ _), lowerBoundFuncLoopE_makes hl a v _ _ _,
    upperBoundFuncLoopE_makes hl a v _ _ _, binarySearchFuncE_makes hl a v, forEachLoopC_makes hc a _ _, forEachIfLoopC_makes hp a _ _, forEachMutableLoopC_makes hmc a _ _, forEachMutableIfLoopC_makes hmp a _ _⟩

/-- C182, heaps: making, testing, popping, removing and sorting allocate nothing, in both forms, nor do `Pop`, `Top`, `Len`, `IsEmpty` and `Clear` of a priority queue. -/
theorem C182_heaps [GoOrd T] (a : Sl) (i : Int) (sort : Nat → SortProg) {less : LessA T τ} (hl : ∀ x y, Makes hsTop 0 (less x y)) :
    Makes hsTop 0 (makeHeapFuncA a less) ∧ Makes hsTop 0 (isHeapFuncA a less) ∧ Makes hsTop 0 (popHeapFuncA less) ∧ Makes hsTop 0 (removeHeapFuncA i less) ∧ Makes hsTop 0 (sortFuncA sort a less) ∧
    Makes hsTop 0 (stableSortFuncA sort a less) ∧ Makes hsTop 0 (makeMinHeapM a : GoM (HS T τ) Unit) ∧ Makes hsTop 0 (popMinHeapM : GoM (HS T τ) T) ∧ Makes hsTop 0 (removeMinHeapM i : GoM (HS T τ) T) ∧
    Makes hsTop 0 (PQM.top : GoM (HS T τ) T) ∧ Makes hsTop 0 (PQM.len : GoM (HS T τ) Nat) ∧ Makes hsTop 0 (PQM.isEmpty : GoM (HS T τ) Bool) ∧ Makes hsTop 0 (PQM.clear : GoM (HS T τ) Unit) :=
  ⟨makeHeapFuncLoopA_makes hl a _ _, isHeapFuncLoopA_makes hl a _ _ _, popHeapFuncA_makes hl, removeHeapFuncA_makes hl i, sortFuncA_makes hl sort a, sortFuncA_makes hl sort a, makeMinHeapLoopM_makes a _ _, popMinHeapM_makes,
    removeMinHeapM_makes i, HS.recv_makes.bind fun _ => HS.on_makes (Sl.get_makes _ _), HS.recv_makes.bind fun _ => Makes.pure _, HS.recv_makes.bind fun _ => Makes.pure _,
    HS.recv_makes.bind fun _ => (HS.on_makes (Sl.slice_makes _ _ _)).bind fun _ => HS.assign_makes _⟩

/-- C182, push: a push to a heap allocates nothing while there is room, and one array when there is none. -/
theorem C182_push [GoZero T] [GoOrd T] (grow : Nat → Nat → Nat) (v : T) (s : HS T τ) {less : LessA T τ} (hl : ∀ x y, Makes hsTop 0 (less x y)) :
    MakesFrom hsTop (if s.heap.len < s.heap.cap then 0 else max (s.heap.len + 1) (grow s.heap.cap (s.heap.len + 1))) s (pushMinHeapM grow v s) ∧
    MakesFrom hsTop (if s.heap.len < s.heap.cap then 0 else max (s.heap.len + 1) (grow s.heap.cap (s.heap.len + 1))) s (pushHeapFuncA grow v less s) := by
  have ha : MakesFrom hsTop (if s.heap.len < s.heap.cap then 0 else max (s.heap.len + 1) (grow s.heap.cap (s.heap.len + 1))) s ((HS.on (s.heap.append grow [v]) : GoM (HS T τ) Sl) s) := by
    split
    · rename_i h; exact HS.on_makes (Sl.append_makes_room grow _ [v] h) s
    · rename_i h; exact HS.on_makes (Sl.append_makes_new grow _ [v] h) s
  constructor
  · refine (MakesFrom.bind (j := 0) (HS.recv_makes s) (fun h s' hv => ?_)).zero_add
    injection hv with h1 h2; subst h1 h2
    exact MakesFrom.bind (k := 0) ha (fun t s' _ => ((HS.assign_makes t).bind fun _ => HS.recv_makes.bind fun _ => heapUpLoopM_makes _ _ _) s')
  · refine (MakesFrom.bind (j := 0) (HS.recv_makes s) (fun h s' hv => ?_)).zero_add
    injection hv with h1 h2; subst h1 h2
    exact MakesFrom.bind (k := 0) ha (fun t s' _ => ((HS.assign_makes t).bind fun _ => HS.recv_makes.bind fun _ => heapUpFuncLoopA_makes hl _ _ _) s')

/-- C182, copies: `RemoveCopy`, `RemoveIfCopy`, `ReverseCopy` and `TransformCopy` allocate one array as long as the argument, and never grow it, whatever the growth rule of append; `Copy` does so for an argument that is not
empty (up to rounding by append); `CopyTo` and `TransformTo` allocate nothing if the target has the capacity. -/
theorem C182_copies [GoEq T] [GoZero T] [GoZero R] (grow : Nat → Nat → Nat) (a to : Sl) (v : T) {p : T → GoM (CS T ρ) Bool} (hp : ∀ x, Makes csTop 0 (p x))
    (n : Nat) {rd : Nat → GoM (CS R ρ) T} (hr : ∀ i, Makes csTop 0 (rd i)) {op : T → GoM (CS R ρ) R} (ho : ∀ x, Makes csTop 0 (op x)) :
    Makes memTop a.len (removeCopy grow a v) ∧ Makes csTop a.len (removeIfCopyC grow a p) ∧ Makes memTop a.len (reverseCopy grow a : GoM (Mem T) Sl) ∧ Makes csTop n (transformCopyC n rd op) ∧
    Makes memTop (if a.len = 0 then 0 else max a.len (grow 0 a.len)) (copySlice grow a : GoM (Mem T) Sl) ∧
    (a.len ≤ to.cap → Makes memTop 0 (copyTo grow a to : GoM (Mem T) Sl)) ∧ (n ≤ to.cap → Makes csTop 0 (transformToC grow n rd op to)) := by
  refine ⟨?_, ?_, ?_, ?_, fun m => ?_, fun h m => ?_, fun h => ?_⟩
  · exact MakesFrom.make_bind (k := 0) fun r h0 hc => removeCopyLoop_makes grow a v _ _ r (by rw [h0, hc]; exact Nat.le_of_eq (Nat.zero_add _))
  · exact CS.make_bind (k := 0) ⟨by omega, by omega⟩ fun r h0 hc => removeIfCopyLoopC_makes grow a hp _ _ r (by rw [h0, hc]; exact Nat.le_of_eq (Nat.zero_add _))
  · exact MakesFrom.make_bind (k := 0) fun r h0 hc => reverseCopyLoop_makes grow a _ r (by rw [h0, hc]; exact Nat.le_of_eq (Nat.zero_add _))
  · exact CS.make_bind (k := 0) ⟨by omega, by omega⟩ fun r h0 hc => (transformCopyLoopC_makes hr ho r _ _).bind fun _ => Makes.pure _
  · refine (MakesFrom.bind (j := 0) (Sl.load_makes a m) (fun ys m' hy => ?_)).zero_add
    injection hy with h1 h2
    have hlen : ys.length = a.len := by rw [← h1, Sl.read_length']
    split
    · exact Sl.append_makes_room grow Sl.empty ys (by rw [hlen]; show 0 + a.len ≤ 0; omega) m'
    · have := Sl.append_makes_new grow Sl.empty ys (by rw [hlen]; show ¬ 0 + a.len ≤ 0; omega) m'
      rw [hlen] at this
      show MakesFrom _ (max a.len (grow 0 a.len)) _ _
      have e : Sl.empty.len + a.len = a.len := Nat.zero_add _
      rw [e] at this
      exact this
  · refine MakesFrom.bind (j := 0) (k := 0) (Sl.slice_makes to 0 0 m) (fun t m' ht => ?_)
    obtain ⟨_, _, _, _, e⟩ := Sl.slice_header ht
    refine MakesFrom.bind (j := 0) (k := 0) (Sl.load_makes a m') (fun ys m'' hy => ?_)
    injection hy with h1 h2
    have hlen : ys.length = a.len := by rw [← h1, Sl.read_length']
    exact Sl.append_makes_room grow t ys (by rw [hlen, e]; show 0 + a.len ≤ to.cap - 0; omega) m''
  · exact CS.slice_bind to 0 0 fun r h0 hc => transformToLoopC_makes grow hr ho n 0 r (by rw [h0, hc]; show 0 + n ≤ to.cap - 0; omega)

/-- C182, vectors and stacks in place: these methods allocate nothing. -/
theorem C182_vectors [GoZero T] (grow : Nat → Nat → Nat) (i j : Int) (x : T) (cond : σ → T → σ × Bool) (t : σ) :
    Makes vsTop 0 (Vec.clear : GoM (VS T) Unit) ∧ Makes vsTop 0 (Vec.at i : GoM (VS T) T) ∧ Makes vsTop 0 (Vec.set i x) ∧ Makes vsTop 0 (Vec.popBack : GoM (VS T) T) ∧ Makes vsTop 0 (Vec.tryPopBack : GoM (VS T) (T × Bool)) ∧
    Makes vsTop 0 (Vec.back : GoM (VS T) T) ∧ Makes vsTop 0 (Vec.removeIf cond t) ∧ (i ≤ j → Makes vsTop 0 (Vec.removeRange grow i j : GoM (VS T) Unit)) ∧ Makes vsTop 0 (Vec.remove grow i : GoM (VS T) Unit) ∧
    Makes vsTop 0 (Stk.clear : GoM (VS T) Unit) ∧ Makes vsTop 0 (Stk.tryPop : GoM (VS T) (T × Bool)) ∧ Makes vsTop 0 (Stk.pop : GoM (VS T) T) ∧ Makes vsTop 0 (Stk.top : GoM (VS T) T) := by
  refine ⟨?_, ?_, ?_, Vec.popBack_makes, ?_, ?_, Vec.removeIf_makes cond t, Vec.removeRange_makes grow i j, Vec.removeRange_makes grow i _ (by omega), ?_, ?_, ?_, ?_⟩
  · exact VS.recv_makes.bind fun _ => (VS.on_makes (Sl.clear_makes _)).bind fun _ => (VS.on_makes (Sl.slice_makes _ _ _)).bind fun _ => VS.assign_makes _
  · exact VS.recv_makes.bind fun _ => VS.on_makes (Sl.get_makes _ _)
  · exact VS.recv_makes.bind fun _ => VS.on_makes (Sl.put_makes _ _ _)
  · refine Makes.bind (VS.recv_makes.bind fun _ => Makes.pure _) fun b => ?_
    split
    · exact Makes.pure _
    · exact Vec.popBack_makes.bind fun _ => Makes.pure _
  · exact VS.recv_makes.bind fun _ => VS.on_makes (Sl.get_makes _ _)
  · exact VS.recv_makes.bind fun _ => (VS.on_makes (Sl.slice_makes _ _ _)).bind fun _ => VS.assign_makes _
  · refine VS.recv_makes.bind fun e => ?_
    split
    · exact Makes.pure _
    · exact (VS.on_makes (Sl.get_makes _ _)).bind fun _ => (VS.on_makes (Sl.slice_makes _ _ _)).bind fun _ => (VS.assign_makes _).bind fun _ => Makes.pure _
  · exact VS.recv_makes.bind fun _ => (VS.on_makes (Sl.get_makes _ _)).bind fun _ => (VS.on_makes (Sl.slice_makes _ _ _)).bind fun _ => (VS.assign_makes _).bind fun _ => Makes.pure _
  · exact VS.recv_makes.bind fun _ => VS.on_makes (Sl.get_makes _ _)

/-- C182, growing vectors and stacks: nothing while there is room; otherwise `Reserve` and `Insert` allocate exactly what is needed, and `PushBack`, `Append` and `Push` what append gives. -/
theorem C182_vector_grow [GoZero T] (grow : Nat → Nat → Nat) (s : VS T) (l i : Int) (x : T) (y : Sl) :
    MakesFrom vsTop (if s.v.cap < l then l.toNat else 0) s ((Vec.reserve l : GoM (VS T) Unit) s) ∧
    MakesFrom vsTop (if s.v.len + y.len ≤ s.v.cap then 0 else s.v.len + y.len) s ((Vec.insert i y : GoM (VS T) Unit) s) ∧
    MakesFrom vsTop (if s.v.len < s.v.cap then 0 else max (s.v.len + 1) (grow s.v.cap (s.v.len + 1))) s (Vec.pushBack grow x s) ∧
    MakesFrom vsTop (if s.v.len + y.len ≤ s.v.cap then 0 else max (s.v.len + y.len) (grow s.v.cap (s.v.len + y.len))) s ((Vec.append grow y : GoM (VS T) Unit) s) ∧
    MakesFrom vsTop (if s.v.len < s.v.cap then 0 else max (s.v.len + 1) (grow s.v.cap (s.v.len + 1))) s (Stk.push grow x s) :=
  ⟨Vec.reserve_makes l s, Vec.insert_makes i y s, Vec.pushBack_makes grow x s, Vec.append_makes grow y s, Vec.pushBack_makes grow x s⟩

/-- C182, doubly linked lists: a push makes one node, and the first push to a zero list one more, the sentinel. Nothing else makes a node. -/
theorem C182_dlist [GoZero T] (v : T) (s : DS T) (t : σ) (f1 : σ → T → σ) (f2 : σ → T → σ × Bool) (f3 : σ → T → σ × T) (f4 : σ → T → σ × T × Bool) :
    MakesFrom dsNodes (if s.l.head = none then 2 else 1) s (DL.pushFront v s) ∧ MakesFrom dsNodes (if s.l.head = none then 2 else 1) s (DL.pushBack v s) ∧
    Makes dsNodes 0 (DL.tryPopFront : GoM (DS T) (T × Bool)) ∧ Makes dsNodes 0 (DL.tryPopBack : GoM (DS T) (T × Bool)) ∧ Makes dsNodes 0 (DL.popFront : GoM (DS T) T) ∧ Makes dsNodes 0 (DL.popBack : GoM (DS T) T) ∧
    Makes dsNodes 0 (DL.clear : GoM (DS T) Unit) ∧ Makes dsNodes 0 (DL.forEach f1 t : GoM (DS T) σ) ∧ Makes dsNodes 0 (DL.forEachIf f2 t : GoM (DS T) σ) ∧ Makes dsNodes 0 (DL.forEachMutable f3 t : GoM (DS T) σ) ∧
    Makes dsNodes 0 (DL.forEachMutableIf f4 t : GoM (DS T) σ) := by
  refine ⟨DL.pushFront_makes v s, DL.pushBack_makes v s, DL.tryPopFront_makes, DL.tryPopBack_makes, DL.tryPopFront_makes.bind fun r => ?_, DL.tryPopBack_makes.bind fun r => ?_, DL.clear_makes,
    DL.isEmpty_makes.bind fun b => ?_, DL.isEmpty_makes.bind fun b => ?_, DL.isEmpty_makes.bind fun b => ?_, DL.isEmpty_makes.bind fun b => ?_⟩
  · split
    · exact Makes.panic
    · exact Makes.pure _
  · split
    · exact Makes.panic
    · exact Makes.pure _
  · split
    · exact Makes.pure _
    · exact Makes.get.bind fun _ => (DS.load_makes _).bind fun _ => DL.forEachLoop_makes f1 _ _ _
  · split
    · exact Makes.pure _
    · exact Makes.get.bind fun _ => (DS.load_makes _).bind fun _ => DL.forEachIfLoop_makes f2 _ _ _
  · split
    · exact Makes.pure _
    · exact Makes.get.bind fun _ => (DS.load_makes _).bind fun _ => DL.forEachMutableLoop_makes f3 _ _ _
  · split
    · exact Makes.pure _
    · exact Makes.get.bind fun _ => (DS.load_makes _).bind fun _ => DL.forEachMutableIfLoop_makes f4 _ _ _

/-- C182, singly linked lists: a push makes one node. Nothing else makes a node. -/
theorem C182_slist [GoZero T] (v : T) (t : σ) (f1 : σ → T → σ) (f2 : σ → T → σ × Bool) (f3 : σ → T → σ × T) (f4 : σ → T → σ × T × Bool) :
    Makes lsNodes 1 (LL.pushFront v) ∧ Makes lsNodes 1 (LL.pushBack v) ∧ Makes lsNodes 0 (LL.popFront : GoM (LS T) T) ∧ Makes lsNodes 0 (LL.reverse : GoM (LS T) Unit) ∧ Makes lsNodes 0 (LL.values : GoM (LS T) (List T)) ∧
    Makes lsNodes 0 (LL.clear : GoM (LS T) Unit) ∧ Makes lsNodes 0 (LL.forEach f1 t : GoM (LS T) σ) ∧ Makes lsNodes 0 (LL.forEachIf f2 t : GoM (LS T) σ) ∧ Makes lsNodes 0 (LL.forEachMutable f3 t : GoM (LS T) σ) ∧
    Makes lsNodes 0 (LL.forEachMutableIf f4 t : GoM (LS T) σ) := by
  refine ⟨LL.pushFront_makes v, LL.pushBack_makes v, LL.popFront_makes, LL.reverse_makes, Makes.bind (Makes.get.bind fun _ => Makes.pure _) fun n => ?_, LS.mod_makes _ (fun _ => rfl),
    Makes.get.bind fun _ => LL.forEachLoop_makes f1 _ _ _, Makes.get.bind fun _ => LL.forEachIfLoop_makes f2 _ _ _, Makes.get.bind fun _ => LL.forEachMutableLoop_makes f3 _ _ _,
    Makes.get.bind fun _ => LL.forEachMutableIfLoop_makes f4 _ _ _⟩
  split
  · exact Makes.panic
  · exact Makes.get.bind fun _ => LL.valuesLoop_makes _ _ _ _

/-- C182, skip lists: with any compare function, also one with a state, the lookups and `Remove` make no node. -/
theorem C182_skiplist (c : CmpM K τ) (key last : K) (impl : SLImpl K) (sl sl' : SL K V) (b : Bool) :
    Makes slsNodes 0 (SLM.find c key : GoM (SLS K V τ) _) ∧ Makes slsNodes 0 (SLM.has c key : GoM (SLS K V τ) _) ∧ Makes slsNodes 0 (SLM.lowerBoundIter c key : GoM (SLS K V τ) _) ∧
    Makes slsNodes 0 (SLM.upperBoundIter c key : GoM (SLS K V τ) _) ∧ Makes slsNodes 0 (SLM.findRange c key last : GoM (SLS K V τ) _) ∧ Makes slsNodes 0 (SLM.remove c key : GoM (SLS K V τ) _) ∧
    (sl.remove impl key = .ret (sl', b) → sl'.nodes.length = sl.nodes.length) :=
  ⟨SLM.findNode_makes c key, (SLM.findNode_makes c key).bind fun _ => Makes.pure _, (SLM.lowerBound_makes c key).bind fun _ => Makes.pure _, (SLM.upperBound_makes c key).bind fun _ => Makes.pure _,
    (SLM.lowerBound_makes c key).bind fun _ => (SLM.upperBound_makes c last).bind fun _ => Makes.pure _, SLM.remove_makes c key, fun h => (SL.remove_keeps impl sl key).get h⟩

/-- C182, skip lists, insertion: `Insert` makes one node when `Len` grows by one, and otherwise none and `Len` stays: no list, no keys and no compare function make it do anything else. -/
theorem C182_skiplist_insert (c : CmpM K τ) (impl : SLImpl K) (rnd : Nat) (key : K) (value : V) (sl sl' : SL K V) (s s' : SLS K V τ) :
    (sl.insert impl rnd key value = .ret sl' → SL.Inserted sl sl') ∧ (SLM.insert c rnd key value s = .ok () s' → SL.Inserted s.sl s'.sl) :=
  ⟨fun h => (SL.insert_inserted impl rnd sl key value).get h, fun h => SLM.insert_inserted c rnd key value h⟩

/-! ## Examples -/

/-- What the measure is after a call that returned. -/
def Res.after {α : Type} (μ : σ → Nat) : Res σ α → Option Nat
  | .ok _ s => some (μ s)
  | _ => none

/-- Three cells with 5, 6, 5. -/
def memThree : Mem Int := { cell := fun k => if k = 1 then 6 else 5, top := 3 }
/-- The slice over them. -/
def slThree : Sl := { off := 0, len := 3, cap := 3 }

-- Whatever append would allocate, `RemoveCopy` of the fives takes three cells, and `Remove` none. `Copy` takes what append allocates. `UniqueCopy` starts from nil and grows twice.
example : (removeCopy (fun _ _ => 100) slThree 5 memThree).after memTop = some 6 ∧ (remove slThree 5 memThree).after memTop = some 3 ∧
    (copySlice (fun _ _ => 100) slThree memThree).after memTop = some 103 ∧ (uniqueCopy (fun _ _ => 0) slThree memThree).after memTop = some 9 := by decide +kernel

-- A predicate with a counter allocates nothing, and one that makes a slice does.
example : ∀ v : Int, Makes csTop 0 (fun s : CS Int Nat => .ok (decide (v = 5)) { s with st := s.st + 1 } : GoM (CS Int Nat) Bool) := fun _ _ => rfl
example : ¬ Makes csTop 0 (CS.on (Sl.make 1 1) : GoM (CS Int Nat) Sl) := fun h => by
  have := h ⟨memThree, 0⟩
  exact absurd (show (4 : Nat) = 3 from this) (by decide)

-- `Insert` of two elements: five cells without room, none with room. `PushBack` with room.
example : (Vec.insert 1 { off := 0, len := 2, cap := 3 } ⟨memThree, slThree⟩).after vsTop = some 8 ∧ (Vec.insert 0 { off := 1, len := 2, cap := 2 } ⟨memThree, { off := 0, len := 1, cap := 3 }⟩).after vsTop = some 3 ∧
    (Vec.pushBack (fun c _ => 2 * c) 7 ⟨memThree, { off := 0, len := 2, cap := 3 }⟩).after vsTop = some 3 ∧ (Vec.pushBack (fun c _ => 2 * c) 7 ⟨memThree, slThree⟩).after vsTop = some 9 := by decide +kernel

-- The condition `i ≤ j` of `RemoveRange`: with `i > j` elements are repeated, and that takes a new array before the call panics.
example : (match (Vec.removeRange (fun c _ => 2 * c) 2 0 ⟨memThree, slThree⟩ : Res (VS Int) Unit) with | .panic s => s.mem.top | _ => 0) = 9 := by decide +kernel

-- Two pushes to a zero list make the sentinel and two nodes; popping gives none back.
example : ((do DL.pushBack 1; DL.pushFront 2; DL.popFront : GoM (DS Int) Int) { heap := [], l := {} }).after dsNodes = some 3 ∧
    ((do LL.pushBack 1; LL.pushFront 2; LL.popFront : GoM (LS Int) Int) { heap := [], l := {} }).after lsNodes = some 2 := by decide +kernel

-- Three insertions, one of them of a key that is there, make two nodes.
example : (match ((newSkipList : SL Int Int).insert (.func fun a b => a - b) 1 4 40 >>= fun sl => sl.insert (.func fun a b => a - b) 1 4 41 >>= fun sl => sl.insert (.func fun a b => a - b) 1 3 30) with
    | .ret sl => (sl.nodes.length, sl.len) | _ => (0, 0)) = (2, 2) := by decide +kernel

end Stl4go
