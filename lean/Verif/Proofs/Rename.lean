import Verif.Spec.Rename
import Verif.Proofs.HeapLaws
import Verif.Proofs.PriorityQueue
import Verif.Proofs.BinarySearch
import Verif.Proofs.Sort
import Verif.Spec.Heap
/-! # Renaming: skip lists, searching, sorting, queues (heaps are in `HeapLaws.lean`) -/
namespace Stl4go
variable {T U V A B C : Type}

theorem Outcome.map_bind' (g : B → C) (x : Outcome A) (k : A → Outcome B) : g <$> (x >>= k) = x >>= fun a => g <$> k a := by
  cases x <;> rfl

theorem Outcome.bind_map' (h : A → B) (x : Outcome A) (k : B → Outcome C) : (h <$> x) >>= k = x >>= fun a => k (h a) := by
  cases x <;> rfl

theorem Outcome.map_ret' (g : A → B) (a : A) : g <$> (Outcome.ret a) = .ret (g a) := rfl
theorem Outcome.map_panic' (g : A → B) : g <$> (Outcome.panic : Outcome A) = .panic := rfl
theorem Outcome.map_diverge' (g : A → B) : g <$> (Outcome.diverge : Outcome A) = .diverge := rfl

variable (f : T → U)

theorem SL.deref_rekey (sl : SL T V) (p : Nat) : (sl.rekey f).deref p = SLNode.rekey f <$> sl.deref p := idx_map _ _ _

theorem SL.nextAt_rekey (sl : SL T V) (r : Ref) (i : Nat) : (sl.rekey f).nextAt r i = sl.nextAt r i := by
  cases r with
  | head => rfl
  | node p =>
    simp only [SL.nextAt, SL.deref_rekey, Outcome.bind_map']
    rfl

theorem SL.setNextAt_rekey (sl : SL T V) (r : Ref) (i : Nat) (v : Option Nat) :
    (sl.rekey f).setNextAt r i v = SL.rekey f <$> sl.setNextAt r i v := by
  cases r with
  | head =>
    simp only [SL.setNextAt, Outcome.map_bind']
    rfl
  | node p =>
    simp only [SL.setNextAt, SL.deref_rekey, Outcome.bind_map', Outcome.map_bind']
    congr; funext n
    show (setIdx n.next i v >>= _) = (setIdx n.next i v >>= _)
    cases setIdx n.next i v with
    | ret nx =>
      simp only [SL.rekey, Outcome.pure_eq, Outcome.ret_bind, Outcome.map_ret', List.map_set]
      rfl
    | panic => rfl
    | diverge => rfl

theorem SL.setValue_rekey (sl : SL T V) (p : Nat) (v : V) : (sl.rekey f).setValue p v = SL.rekey f <$> sl.setValue p v := by
  simp only [SL.setValue, SL.deref_rekey, Outcome.bind_map', Outcome.map_bind']
  congr; funext n
  simp only [SL.rekey, Outcome.pure_eq, Outcome.map_ret', List.map_set]
  rfl

theorem SL.newNode_rekey (sl : SL T V) (level : Nat) (k : T) (v : V) :
    (sl.rekey f).newNode level (f k) v = (fun r => (r.1.rekey f, r.2)) <$> sl.newNode level k v := by
  simp only [SL.newNode]
  split
  · simp [SL.rekey, SLNode.rekey, Outcome.map_ret']
  · rfl

theorem SL.prevsSlice_rekey (sl : SL T V) : (sl.rekey f).prevsSlice = sl.prevsSlice := rfl

theorem SL.length_rekey (sl : SL T V) : (sl.rekey f).nodes.length = sl.nodes.length := by simp [SL.rekey]

section
variable (ord : GoOrd U)

theorem SL.doFindNodeInner_rekey (sl : SL T V) (k : T) (i fuel : Nat) : ∀ (prev : Ref) (cur : Option Nat),
    @SL.doFindNodeInner U V ord (sl.rekey f) (f k) i fuel prev cur = @SL.doFindNodeInner T V (ord.pull f) sl k i fuel prev cur := by
  induction fuel with
  | zero => intro prev cur; rfl
  | succ fuel ih =>
    intro prev cur
    cases cur with
    | none => rfl
    | some c =>
      simp only [SL.doFindNodeInner, SL.deref_rekey, Outcome.bind_map']
      congr; funext n
      simp only [SLNode.rekey, ih]
      rfl

theorem SL.doFindNodeOuter_rekey (sl : SL T V) (k : T) (i : Nat) : ∀ prev : Ref,
    @SL.doFindNodeOuter U V ord (sl.rekey f) (f k) i prev = @SL.doFindNodeOuter T V (ord.pull f) sl k i prev := by
  induction i with
  | zero => intro prev; rfl
  | succ i ih =>
    intro prev
    simp only [SL.doFindNodeOuter, SL.nextAt_rekey, SL.length_rekey, SL.doFindNodeInner_rekey, ih]

theorem SL.doFindNode_rekey (sl : SL T V) (k : T) (b : Bool) :
    @SL.doFindNode U V ord (sl.rekey f) (f k) b = @SL.doFindNode T V (ord.pull f) sl k b := by
  simp only [SL.doFindNode, SL.doFindNodeOuter_rekey, SL.nextAt_rekey]
  rfl

theorem SL.upperBoundO_rekey (sl : SL T V) (k : T) :
    @SL.upperBoundO U V ord (sl.rekey f) (f k) = @SL.upperBoundO T V (ord.pull f) sl k := by
  simp only [SL.upperBoundO, SL.lowerBoundO, SL.doFindNode_rekey]
  congr; funext o
  cases o with
  | none => rfl
  | some p => simp only [SL.deref_rekey, Outcome.bind_map']; rfl

theorem SL.findInsertInnerO_rekey (sl : SL T V) (k : T) (i fuel : Nat) : ∀ (prev : Ref) (cur : Option Nat),
    @SL.findInsertInnerO U V ord (sl.rekey f) (f k) i fuel prev cur = @SL.findInsertInnerO T V (ord.pull f) sl k i fuel prev cur := by
  induction fuel with
  | zero => intro prev cur; rfl
  | succ fuel ih =>
    intro prev cur
    cases cur with
    | none => rfl
    | some c =>
      simp only [SL.findInsertInnerO, SL.deref_rekey, Outcome.bind_map']
      congr; funext n
      simp only [SLNode.rekey, ih]
      rfl

theorem SL.findInsertOuterO_rekey (sl : SL T V) (k : T) (i : Nat) : ∀ (prev : Ref) (prevs : List (Option Ref)),
    @SL.findInsertOuterO U V ord (sl.rekey f) (f k) i prev prevs = @SL.findInsertOuterO T V (ord.pull f) sl k i prev prevs := by
  induction i with
  | zero => intro prev prevs; rfl
  | succ i ih =>
    intro prev prevs
    simp only [SL.findInsertOuterO, SL.nextAt_rekey, SL.length_rekey, SL.findInsertInnerO_rekey, ih]

theorem SL.findPrevInnerO_rekey (sl : SL T V) (k : T) (i fuel : Nat) : ∀ (prev : Ref) (cur : Option Nat),
    @SL.findPrevInnerO U V ord (sl.rekey f) (f k) i fuel prev cur = @SL.findPrevInnerO T V (ord.pull f) sl k i fuel prev cur := by
  induction fuel with
  | zero => intro prev cur; rfl
  | succ fuel ih =>
    intro prev cur
    cases cur with
    | none => rfl
    | some c =>
      simp only [SL.findPrevInnerO, SL.deref_rekey, Outcome.bind_map']
      congr; funext n
      simp only [SLNode.rekey, ih]
      rfl

theorem SL.findPrevOuterO_rekey (sl : SL T V) (k : T) (i : Nat) : ∀ (prev : Ref) (prevs : List (Option Ref)),
    @SL.findPrevOuterO U V ord (sl.rekey f) (f k) i prev prevs = @SL.findPrevOuterO T V (ord.pull f) sl k i prev prevs := by
  induction i with
  | zero => intro prev prevs; rfl
  | succ i ih =>
    intro prev prevs
    simp only [SL.findPrevOuterO, SL.nextAt_rekey, SL.length_rekey, SL.findPrevInnerO_rekey, ih]

end

section
variable (c : U → U → Int)

theorem SL.lowerBoundInnerF_rekey (sl : SL T V) (k : T) (i fuel : Nat) : ∀ (prev : Ref) (cur : Option Nat),
    SL.lowerBoundInnerF c (sl.rekey f) (f k) i fuel prev cur = SL.lowerBoundInnerF (fun a b => c (f a) (f b)) sl k i fuel prev cur := by
  induction fuel with
  | zero => intro prev cur; rfl
  | succ fuel ih =>
    intro prev cur
    cases cur with
    | none => rfl
    | some x =>
      simp only [SL.lowerBoundInnerF, SL.deref_rekey, Outcome.bind_map']
      congr; funext n
      simp only [SLNode.rekey, ih]

theorem SL.lowerBoundOuterF_rekey (sl : SL T V) (k : T) (i : Nat) : ∀ prev : Ref,
    SL.lowerBoundOuterF c (sl.rekey f) (f k) i prev = SL.lowerBoundOuterF (fun a b => c (f a) (f b)) sl k i prev := by
  induction i with
  | zero => intro prev; rfl
  | succ i ih =>
    intro prev
    simp only [SL.lowerBoundOuterF, SL.nextAt_rekey, SL.length_rekey, SL.lowerBoundInnerF_rekey, ih]

theorem SL.lowerBoundF_rekey (sl : SL T V) (k : T) :
    SL.lowerBoundF c (sl.rekey f) (f k) = SL.lowerBoundF (fun a b => c (f a) (f b)) sl k := by
  simp only [SL.lowerBoundF, SL.lowerBoundOuterF_rekey, SL.nextAt_rekey]
  rfl

theorem SL.findNodeF_rekey (sl : SL T V) (k : T) :
    SL.findNodeF c (sl.rekey f) (f k) = SL.findNodeF (fun a b => c (f a) (f b)) sl k := by
  simp only [SL.findNodeF, SL.lowerBoundF_rekey]
  congr; funext o
  cases o with
  | none => rfl
  | some p => simp only [SL.deref_rekey, Outcome.bind_map']; rfl

theorem SL.upperBoundF_rekey (sl : SL T V) (k : T) :
    SL.upperBoundF c (sl.rekey f) (f k) = SL.upperBoundF (fun a b => c (f a) (f b)) sl k := by
  simp only [SL.upperBoundF, SL.lowerBoundF_rekey]
  congr; funext o
  cases o with
  | none => rfl
  | some p => simp only [SL.deref_rekey, Outcome.bind_map']; rfl

theorem SL.findInsertInnerF_rekey (sl : SL T V) (k : T) (i fuel : Nat) : ∀ (prev : Ref) (cur : Option Nat),
    SL.findInsertInnerF c (sl.rekey f) (f k) i fuel prev cur = SL.findInsertInnerF (fun a b => c (f a) (f b)) sl k i fuel prev cur := by
  induction fuel with
  | zero => intro prev cur; rfl
  | succ fuel ih =>
    intro prev cur
    cases cur with
    | none => rfl
    | some x =>
      simp only [SL.findInsertInnerF, SL.deref_rekey, Outcome.bind_map']
      congr; funext n
      simp only [SLNode.rekey, ih]

theorem SL.findInsertOuterF_rekey (sl : SL T V) (k : T) (i : Nat) : ∀ (prev : Ref) (prevs : List (Option Ref)),
    SL.findInsertOuterF c (sl.rekey f) (f k) i prev prevs = SL.findInsertOuterF (fun a b => c (f a) (f b)) sl k i prev prevs := by
  induction i with
  | zero => intro prev prevs; rfl
  | succ i ih =>
    intro prev prevs
    simp only [SL.findInsertOuterF, SL.nextAt_rekey, SL.length_rekey, SL.findInsertInnerF_rekey, ih]

theorem SL.findPrevInnerF_rekey (sl : SL T V) (k : T) (i fuel : Nat) : ∀ (prev : Ref) (cur : Option Nat),
    SL.findPrevInnerF c (sl.rekey f) (f k) i fuel prev cur = SL.findPrevInnerF (fun a b => c (f a) (f b)) sl k i fuel prev cur := by
  induction fuel with
  | zero => intro prev cur; rfl
  | succ fuel ih =>
    intro prev cur
    cases cur with
    | none => rfl
    | some x =>
      simp only [SL.findPrevInnerF, SL.deref_rekey, Outcome.bind_map']
      congr; funext n
      simp only [SLNode.rekey, ih]

theorem SL.findPrevOuterF_rekey (sl : SL T V) (k : T) (i : Nat) : ∀ (prev : Ref) (prevs : List (Option Ref)),
    SL.findPrevOuterF c (sl.rekey f) (f k) i prev prevs = SL.findPrevOuterF (fun a b => c (f a) (f b)) sl k i prev prevs := by
  induction i with
  | zero => intro prev prevs; rfl
  | succ i ih =>
    intro prev prevs
    simp only [SL.findPrevOuterF, SL.nextAt_rekey, SL.length_rekey, SL.findPrevInnerF_rekey, ih]

end

section
variable (impl : SLImpl U)

theorem SL.findNode_rekey (sl : SL T V) (k : T) : (sl.rekey f).findNode impl (f k) = sl.findNode (impl.pull f) k := by
  cases impl with
  | ordered ord => exact SL.doFindNode_rekey f ord sl k true
  | func c => exact SL.findNodeF_rekey f c sl k

theorem SL.lowerBound_rekey (sl : SL T V) (k : T) : (sl.rekey f).lowerBound impl (f k) = sl.lowerBound (impl.pull f) k := by
  cases impl with
  | ordered ord => exact SL.doFindNode_rekey f ord sl k false
  | func c => exact SL.lowerBoundF_rekey f c sl k

theorem SL.upperBound_rekey (sl : SL T V) (k : T) : (sl.rekey f).upperBound impl (f k) = sl.upperBound (impl.pull f) k := by
  cases impl with
  | ordered ord => exact SL.upperBoundO_rekey f ord sl k
  | func c => exact SL.upperBoundF_rekey f c sl k

theorem SL.findInsertPoint_rekey (sl : SL T V) (k : T) :
    (sl.rekey f).findInsertPoint impl (f k) = (fun r => (r.1.rekey f, r.2)) <$> sl.findInsertPoint (impl.pull f) k := by
  cases impl with
  | ordered ord =>
    simp only [SL.findInsertPoint, SL.prevsSlice_rekey, Outcome.map_bind', SL.findInsertOuterO_rekey, SLImpl.pull]
    rfl
  | func c =>
    simp only [SL.findInsertPoint, SL.prevsSlice_rekey, Outcome.map_bind', SL.findInsertOuterF_rekey, SLImpl.pull]
    rfl

theorem SL.findPrevNodes_rekey (sl : SL T V) (k : T) :
    (sl.rekey f).findPrevNodes impl (f k) = (fun r => (r.1.rekey f, r.2)) <$> sl.findPrevNodes (impl.pull f) k := by
  cases impl with
  | ordered ord =>
    simp only [SL.findPrevNodes, SL.prevsSlice_rekey, Outcome.map_bind', SL.findPrevOuterO_rekey, SLImpl.pull]
    rfl
  | func c =>
    simp only [SL.findPrevNodes, SL.prevsSlice_rekey, Outcome.map_bind', SL.findPrevOuterF_rekey, SLImpl.pull]
    rfl

theorem SLImpl.keyNe_pull (a b : T) : impl.keyNe (f a) (f b) = (impl.pull f).keyNe a b := by
  cases impl <;> rfl

theorem SL.findRemovePoint_rekey (sl : SL T V) (k : T) :
    (sl.rekey f).findRemovePoint impl (f k) = (fun r => (r.1.rekey f, r.2)) <$> sl.findRemovePoint (impl.pull f) k := by
  simp only [SL.findRemovePoint, SL.findPrevNodes_rekey, Outcome.map_bind', Outcome.bind_map', SL.nextAt_rekey]
  congr; funext x; congr; funext r; congr; funext o
  cases o with
  | none => rfl
  | some p =>
    simp only [SL.deref_rekey, Outcome.bind_map', Outcome.map_bind']
    congr; funext n
    simp only [SLNode.rekey, SLImpl.keyNe_pull]
    split <;> rfl

theorem SL.insertLinks_rekey (node : Nat) (prevs : List (Option Ref)) (rem : Nat) : ∀ (i : Nat) (sl : SL T V),
    SL.insertLinks node prevs rem i (sl.rekey f) = SL.rekey f <$> SL.insertLinks node prevs rem i sl := by
  induction rem with
  | zero => intro i sl; rfl
  | succ rem ih =>
    intro i sl
    simp only [SL.insertLinks, SL.nextAt_rekey, SL.setNextAt_rekey, Outcome.map_bind', Outcome.bind_map', ih]

theorem SL.raiseHead_rekey (node : Nat) (rem : Nat) : ∀ (i : Nat) (sl : SL T V),
    SL.raiseHead node rem i (sl.rekey f) = SL.rekey f <$> SL.raiseHead node rem i sl := by
  induction rem with
  | zero => intro i sl; rfl
  | succ rem ih =>
    intro i sl
    simp only [SL.raiseHead, SL.setNextAt_rekey, Outcome.map_bind', Outcome.bind_map', ih]

theorem SL.insert_rekey (rnd : Nat) (sl : SL T V) (k : T) (v : V) :
    (sl.rekey f).insert impl rnd (f k) v = SL.rekey f <$> sl.insert (impl.pull f) rnd k v := by
  simp only [SL.insert, SL.findInsertPoint_rekey, Outcome.map_bind', Outcome.bind_map']
  congr; funext x
  obtain ⟨sl, node, prevs⟩ := x
  cases node with
  | some p => exact SL.setValue_rekey f sl p v
  | none =>
    show ((sl.rekey f).randomLevel rnd >>= _) = SL.rekey f <$> (sl.randomLevel rnd >>= _)
    rw [show (sl.rekey f).randomLevel rnd = sl.randomLevel rnd from rfl, Outcome.map_bind']
    congr; funext level
    rw [SL.newNode_rekey, Outcome.bind_map', Outcome.map_bind']
    congr; funext y
    obtain ⟨s, node⟩ := y
    show (SL.insertLinks node prevs (min2 level s.level) 0 (s.rekey f) >>= _) = SL.rekey f <$> (SL.insertLinks node prevs (min2 level s.level) 0 s >>= _)
    rw [SL.insertLinks_rekey, Outcome.bind_map', Outcome.map_bind']
    congr; funext s
    show (if level > s.level then _ else _) = SL.rekey f <$> (if level > s.level then _ else _)
    split
    · show (SL.raiseHead node (level - s.level) s.level (s.rekey f) >>= _) = SL.rekey f <$> (SL.raiseHead node (level - s.level) s.level s >>= _)
      rw [SL.raiseHead_rekey, Outcome.bind_map']
      cases SL.raiseHead node (level - s.level) s.level s <;> rfl
    · rfl

theorem SL.unlink_rekey (node : Nat) (prevs : List (Option Ref)) (rem : Nat) : ∀ (i : Nat) (sl : SL T V),
    SL.unlink node prevs rem i (sl.rekey f) = SL.rekey f <$> SL.unlink node prevs rem i sl := by
  induction rem with
  | zero => intro i sl; rfl
  | succ rem ih =>
    intro i sl
    simp only [SL.unlink, SL.nextAt_rekey, SL.setNextAt_rekey, Outcome.map_bind', Outcome.bind_map', ih]

theorem SL.lowerLevel_rekey (fuel : Nat) : ∀ sl : SL T V,
    SL.lowerLevel fuel (sl.rekey f) = SL.rekey f <$> SL.lowerLevel fuel sl := by
  induction fuel with
  | zero => intro sl; rfl
  | succ fuel ih =>
    intro sl
    simp only [SL.lowerLevel]
    show (if sl.level > 1 then _ else _) = _
    split
    · rw [Outcome.map_bind']
      show (idx sl.headNext (sl.level - 1) >>= _) = _
      congr; funext o
      cases o with
      | none => exact ih { sl with level := sl.level - 1 }
      | some _ => rfl
    · rfl

theorem SL.remove_rekey (sl : SL T V) (k : T) :
    (sl.rekey f).remove impl (f k) = (fun r => (r.1.rekey f, r.2)) <$> sl.remove (impl.pull f) k := by
  simp only [SL.remove, SL.findRemovePoint_rekey, Outcome.map_bind', Outcome.bind_map']
  congr; funext x
  obtain ⟨sl, o⟩ := x
  cases o with
  | none => rfl
  | some q =>
    obtain ⟨p, prevs⟩ := q
    simp only [SL.deref_rekey, Outcome.bind_map', Outcome.map_bind']
    congr; funext n
    simp only [SLNode.rekey, SL.unlink_rekey, Outcome.bind_map']
    congr; funext s
    rw [show (s.rekey f).level = s.level from rfl, SL.lowerLevel_rekey, Outcome.bind_map']
    rfl

theorem SLIter.collect_rekey (sl : SL T V) (fuel : Nat) : ∀ it : SLIter,
    SLIter.collect (sl.rekey f) fuel it = List.map (fun e => (f e.1, e.2)) <$> SLIter.collect sl fuel it := by
  induction fuel with
  | zero => intro it; rfl
  | succ fuel ih =>
    intro it
    simp only [SLIter.collect]
    split
    · cases hn : it.node with
      | none => simp [SLIter.key, SLIter.deref, hn]; rfl
      | some p =>
        simp only [SLIter.key, SLIter.value, SLIter.moveToNext, SLIter.deref, hn, SL.deref_rekey]
        cases sl.deref p with
        | panic => rfl
        | diverge => rfl
        | ret n =>
          simp only [Outcome.map_ret', Outcome.ret_bind, Outcome.pure_eq, SLNode.rekey]
          cases idx n.next 0 with
          | panic => rfl
          | diverge => rfl
          | ret q =>
            simp only [Outcome.ret_bind, ih]
            cases SLIter.collect sl fuel { it with node := q } <;> rfl
    · rfl

theorem SL.observeIter_rekey (sl : SL T V) (it : SLIter) :
    (sl.rekey f).observeIter it = List.map (fun e => (f e.1, e.2)) <$> sl.observeIter it := by
  simp only [SL.observeIter, SL.length_rekey, SLIter.collect_rekey]

theorem SL.exec_rekey (rnd : Nat) (sl : SL T V) (op : SMOp T V) :
    (sl.rekey f).exec impl rnd (op.rekey f) = (fun r => (r.1.rekey f, r.2.rekey f)) <$> sl.exec (impl.pull f) rnd op := by
  cases op with
  | insert k v =>
    simp only [SMOp.rekey, SL.exec, SL.insert_rekey, Outcome.bind_map', Outcome.map_bind']
    rfl
  | remove k =>
    simp only [SMOp.rekey, SL.exec, SL.remove_rekey, Outcome.bind_map', Outcome.map_bind']
    rfl
  | clear => rfl
  | update k v =>
    simp only [SMOp.rekey, SL.exec, SL.find, SL.findNode_rekey, Outcome.map_bind']
    congr; funext o
    cases o with
    | none => rfl
    | some p =>
      simp only [SL.setValue_rekey, Outcome.bind_map', Outcome.map_bind']
      rfl
  | find k =>
    simp only [SMOp.rekey, SL.exec, SL.find, SL.findNode_rekey, Outcome.map_bind']
    congr; funext o
    cases o with
    | none => rfl
    | some p =>
      simp only [SL.readPtr, SL.deref_rekey, Outcome.bind_map', Outcome.map_bind']
      cases sl.deref p <;> rfl
  | has k =>
    simp only [SMOp.rekey, SL.exec, SL.has, SL.findNode_rekey, Outcome.map_bind']
    cases sl.findNode (impl.pull f) k <;> rfl
  | len => rfl
  | isEmpty => rfl
  | iterate =>
    simp only [SMOp.rekey, SL.exec, SL.observeIter_rekey, Outcome.bind_map', Outcome.map_bind']
    rfl
  | lowerBound k =>
    simp only [SMOp.rekey, SL.exec, SL.lowerBoundIter, SL.lowerBound_rekey, SL.observeIter_rekey, Outcome.bind_map', Outcome.map_bind']
    rfl
  | upperBound k =>
    simp only [SMOp.rekey, SL.exec, SL.upperBoundIter, SL.upperBound_rekey, SL.observeIter_rekey, Outcome.bind_map', Outcome.map_bind']
    rfl

theorem SL.run_rekey (h : List (Nat × SMOp T V)) : ∀ sl : SL T V,
    (sl.rekey f).run impl (h.map (fun e => (e.1, e.2.rekey f))) =
      (fun r => (r.1.rekey f, r.2.map (SMObs.rekey f))) <$> sl.run (impl.pull f) h := by
  induction h with
  | nil => intro sl; rfl
  | cons e h ih =>
    intro sl
    obtain ⟨rnd, op⟩ := e
    simp only [List.map_cons, SL.run, SL.exec_rekey, Outcome.bind_map', Outcome.map_bind', ih]
    rfl

end

/-! ## The map of the specification -/

section
variable (less : U → U → Bool)

/-- The entries with the names of their keys. -/
abbrev mapEntries (m : List (T × V)) : List (U × V) := m.map (fun e => (f e.1, e.2))

theorem SMap.find_rekey (k : T) (m : List (T × V)) :
    SMap.find less (f k) (mapEntries f m) = SMap.find (fun a b => less (f a) (f b)) k m := by
  induction m with
  | nil => rfl
  | cons e m ih =>
    obtain ⟨k', v⟩ := e
    simp only [mapEntries, List.map_cons, SMap.find]
    split
    · exact ih
    · rfl

theorem SMap.insert_rekey (k : T) (v : V) (m : List (T × V)) :
    SMap.insert less (f k) v (mapEntries f m) = mapEntries f (SMap.insert (fun a b => less (f a) (f b)) k v m) := by
  induction m with
  | nil => rfl
  | cons e m ih =>
    obtain ⟨k', v'⟩ := e
    simp only [mapEntries, List.map_cons, SMap.insert]
    split
    · rfl
    · split
      · simp only [List.map_cons]; exact congrArg _ ih
      · rfl

theorem SMap.step_rekey (m : List (T × V)) (op : SMOp T V) :
    SMap.step less (mapEntries f m) (op.rekey f) =
      ((SMap.step (fun a b => less (f a) (f b)) m op).1.rekey f, mapEntries f (SMap.step (fun a b => less (f a) (f b)) m op).2) := by
  cases op with
  | insert k v => simp only [SMOp.rekey, SMap.step, SMap.insert_rekey, SMObs.rekey]
  | remove k =>
    simp only [SMOp.rekey, SMap.step, SMap.find_rekey, SMObs.rekey, SMap.erase, mapEntries, List.filter_map]
    rfl
  | clear => rfl
  | update k v =>
    simp only [SMOp.rekey, SMap.step, SMap.find_rekey, SMObs.rekey, SMap.insert_rekey]
    split <;> rfl
  | find k => simp only [SMOp.rekey, SMap.step, SMap.find_rekey, SMObs.rekey]
  | has k => simp only [SMOp.rekey, SMap.step, SMap.find_rekey, SMObs.rekey]
  | len => simp [SMOp.rekey, SMap.step, SMObs.rekey]
  | isEmpty => simp [SMOp.rekey, SMap.step, SMObs.rekey]
  | iterate => rfl
  | lowerBound k =>
    simp only [SMOp.rekey, SMap.step, SMObs.rekey, mapEntries, List.filter_map]
    rfl
  | upperBound k =>
    simp only [SMOp.rekey, SMap.step, SMObs.rekey, mapEntries, List.filter_map]
    rfl

theorem SMap.run_rekey (ops : List (SMOp T V)) : ∀ m : List (T × V),
    SMap.run less (mapEntries f m) (ops.map (SMOp.rekey f)) =
      ((SMap.run (fun a b => less (f a) (f b)) m ops).1.map (SMObs.rekey f), mapEntries f (SMap.run (fun a b => less (f a) (f b)) m ops).2) := by
  induction ops with
  | nil => intro m; rfl
  | cons op ops ih =>
    intro m
    simp only [List.map_cons, SMap.run, SMap.step_rekey, ih]

end

theorem SLImpl.less_pull (impl : SLImpl U) : (impl.pull f).less = fun a b => impl.less (f a) (f b) := by
  cases impl <;> rfl

/-- Keys with a property are names of keys of the subtype. -/
theorem SMOp.lift {P : T → Prop} (op : SMOp T V) (h : op.KeysIn P) : ∃ op' : SMOp { x // P x } V, op = op'.rekey Subtype.val := by
  cases op with
  | insert k v => exact ⟨.insert ⟨k, h⟩ v, rfl⟩
  | remove k => exact ⟨.remove ⟨k, h⟩, rfl⟩
  | clear => exact ⟨.clear, rfl⟩
  | update k v => exact ⟨.update ⟨k, h⟩ v, rfl⟩
  | find k => exact ⟨.find ⟨k, h⟩, rfl⟩
  | has k => exact ⟨.has ⟨k, h⟩, rfl⟩
  | len => exact ⟨.len, rfl⟩
  | isEmpty => exact ⟨.isEmpty, rfl⟩
  | iterate => exact ⟨.iterate, rfl⟩
  | lowerBound k => exact ⟨.lowerBound ⟨k, h⟩, rfl⟩
  | upperBound k => exact ⟨.upperBound ⟨k, h⟩, rfl⟩

theorem lift_history {P : T → Prop} (h : List (Nat × SMOp T V)) (hk : ∀ e ∈ h, e.2.KeysIn P) :
    ∃ h' : List (Nat × SMOp { x // P x } V), h = h'.map (fun e => (e.1, e.2.rekey Subtype.val)) := by
  induction h with
  | nil => exact ⟨[], rfl⟩
  | cons e h ih =>
    obtain ⟨h', e1⟩ := ih (fun e he => hk e (List.mem_cons_of_mem _ he))
    obtain ⟨op, e2⟩ := SMOp.lift e.2 (hk e (List.mem_cons_self ..))
    exact ⟨(e.1, op) :: h', by rw [e1, List.map_cons, ← e2]⟩

theorem StrictWeakOn.sub {P : T → Prop} {less : T → T → Bool} (h : StrictWeakOn P less) :
    StrictWeak (fun a b : { x // P x } => less a.1 b.1) :=
  ⟨fun a => h.irrefl a.1 a.2, fun a b c => h.trans a.1 b.1 c.1 a.2 b.2 c.2, fun a b c => h.incomp a.1 b.1 c.1 a.2 b.2 c.2⟩

theorem SLImpl.LawfulOn.sub {P : T → Prop} {impl : SLImpl T} (h : impl.LawfulOn P) :
    (impl.pull (Subtype.val : { x // P x } → T)).Lawful := by
  cases impl with
  | ordered ord => exact @LawfulGoOrd.mk _ (ord.pull Subtype.val) h.1.sub (fun a b => h.2 a.1 b.1 a.2 b.2)
  | func c =>
    refine ⟨h.1.sub, fun a b => ?_⟩
    have := h.2 a.1 b.1 a.2 b.2
    show c a.1 b.1 = 0 ↔ _
    rw [this]
    simp [Equiv]

theorem lift_list {P : T → Prop} (a : List T) (h : ∀ x ∈ a, P x) : ∃ a' : List { x // P x }, a = a'.map Subtype.val :=
  ⟨a.attachWith P h, by simp⟩

theorem sortedBy_map (less : U → U → Bool) (a : List T) : SortedBy less (a.map f) ↔ SortedBy (fun x y => less (f x) (f y)) a := by
  constructor
  · intro h i j hi hj hij
    have := h i j (by simpa using hi) (by simpa using hj) hij
    simpa using this
  · intro h i j hi hj hij
    have := h i j (by simpa using hi) (by simpa using hj) hij
    simpa using this

theorem isHeap_map (less : U → U → Bool) (a : List T) : IsHeap less (a.map f) ↔ IsHeap (fun x y => less (f x) (f y)) a := by
  constructor
  · intro h i hi h0
    have := h i (by simpa using hi) h0
    simpa using this
  · intro h i hi h0
    have := h i (by simpa using hi) h0
    simpa using this

/-! ## Searching -/

section
variable {f} {less : T → T → Bool} {less' : U → U → Bool} (hf : ∀ a b, less' (f a) (f b) = less a b)
include hf

theorem lowerBoundFuncLoop_map (a : List T) (v : T) (fuel : Nat) : ∀ loc count : Nat,
    lowerBoundFuncLoop (a.map f) (f v) less' fuel loc count = lowerBoundFuncLoop a v less fuel loc count := by
  induction fuel with
  | zero => intro loc count; rfl
  | succ fuel ih =>
    intro loc count
    simp only [lowerBoundFuncLoop, idx_map, Outcome.bind_map', hf, ih]

theorem upperBoundFuncLoop_map (a : List T) (v : T) (fuel : Nat) : ∀ loc count : Nat,
    upperBoundFuncLoop (a.map f) (f v) less' fuel loc count = upperBoundFuncLoop a v less fuel loc count := by
  induction fuel with
  | zero => intro loc count; rfl
  | succ fuel ih =>
    intro loc count
    simp only [upperBoundFuncLoop, idx_map, Outcome.bind_map', hf, ih]

theorem lowerBoundFunc_map (a : List T) (v : T) : lowerBoundFunc (a.map f) (f v) less' = lowerBoundFunc a v less := by
  simp only [lowerBoundFunc, lowerBoundFuncLoop_map hf, List.length_map]

theorem upperBoundFunc_map (a : List T) (v : T) : upperBoundFunc (a.map f) (f v) less' = upperBoundFunc a v less := by
  simp only [upperBoundFunc, upperBoundFuncLoop_map hf, List.length_map]

theorem binarySearchFunc_map (a : List T) (v : T) : binarySearchFunc (a.map f) (f v) less' = binarySearchFunc a v less := by
  simp only [binarySearchFunc, lowerBoundFunc_map hf, List.length_map, idx_map, Outcome.bind_map', hf]

/-! ## Sorting -/

theorem SortProg.onList_map (p : SortProg) : ∀ a : List T, p.onList less' (a.map f) = (p.onList less a).map (List.map f) := by
  induction p with
  | done => intro a; rfl
  | less i j k ih =>
    intro a
    simp only [SortProg.onList, List.getElem?_map]
    cases a[i]? with
    | none => rfl
    | some x => cases a[j]? with
      | none => rfl
      | some y => simp only [Option.map_some, hf, ih]
  | swap i j k ih =>
    intro a
    simp only [SortProg.onList, List.getElem?_map]
    cases a[i]? with
    | none => rfl
    | some x => cases a[j]? with
      | none => rfl
      | some y => simp only [Option.map_some, ← List.map_set, ih]

theorem insertLast_map (x : T) (a : List T) : insertLast less' (f x) (a.map f) = (insertLast less x a).map f := by
  induction a with
  | nil => rfl
  | cons y a ih =>
    simp only [List.map_cons, insertLast, hf]
    split
    · rw [ih]; simp
    · simp

theorem sortedStably_map (a : List T) : sortedStably less' (a.map f) = (sortedStably less a).map f := by
  have : ∀ (a out : List T), (a.map f).foldl (fun out x => insertLast less' x out.reverse) (out.map f) =
      (a.foldl (fun out x => insertLast less x out.reverse) out).map f := by
    intro a
    induction a with
    | nil => intro out; rfl
    | cons x a ih =>
      intro out
      simp only [List.map_cons, List.foldl_cons]
      rw [← List.map_reverse, insertLast_map hf, ih]
  exact this a []

end

/-! ## Queues -/

theorem PQ.exec_map (pq : PQ T) (pq' : PQ U) (h1 : pq'.heap = pq.heap.map f) (h2 : ∀ a b, pq'.order (f a) (f b) = pq.order a b) (op : PQOp T) :
    (pq'.exec (op.map f)).1 = (pq.exec op).1.map f ∧ (pq'.exec (op.map f)).2.heap = (pq.exec op).2.heap.map f ∧
    (pq'.exec (op.map f)).2.order = pq'.order ∧ (pq.exec op).2.order = pq.order := by
  cases op with
  | push v =>
    simp only [PQOp.map, PQ.exec, PQ.push_eq, h1, pushHeapFunc_map h2]
    cases pushHeapFunc pq.heap v pq.order <;> exact ⟨rfl, by first | rfl | exact h1, rfl, rfl⟩
  | pop =>
    simp only [PQOp.map, PQ.exec, PQ.pop_eq, h1, popHeapFunc_map h2]
    cases popHeapFunc pq.heap pq.order <;> exact ⟨rfl, by first | rfl | exact h1, rfl, rfl⟩
  | top =>
    simp only [PQOp.map, PQ.exec, PQ.top, h1, idx_map]
    cases idx pq.heap 0 <;> exact ⟨rfl, h1, rfl, rfl⟩
  | clear => exact ⟨rfl, by simp [PQOp.map, PQ.exec, PQ.clear], rfl, rfl⟩
  | len => exact ⟨by simp [PQOp.map, PQ.exec, PQ.len, PQObs.map, h1], h1, rfl, rfl⟩
  | isEmpty => exact ⟨by simp [PQOp.map, PQ.exec, PQ.isEmpty, PQObs.map, h1], h1, rfl, rfl⟩

theorem PQ.execAll_map (ops : List (PQOp T)) : ∀ (pq : PQ T) (pq' : PQ U), pq'.heap = pq.heap.map f → (∀ a b, pq'.order (f a) (f b) = pq.order a b) →
    (pq'.execAll (ops.map (PQOp.map f))).1 = (pq.execAll ops).1.map (PQObs.map f) ∧
    (pq'.execAll (ops.map (PQOp.map f))).2.heap = (pq.execAll ops).2.heap.map f := by
  induction ops with
  | nil => intro pq pq' h1 h2; exact ⟨rfl, h1⟩
  | cons op ops ih =>
    intro pq pq' h1 h2
    obtain ⟨g1, g2, g3, g4⟩ := PQ.exec_map f pq pq' h1 h2 op
    have := ih (pq.exec op).2 (pq'.exec (op.map f)).2 g2 (by rw [g3, g4]; exact h2)
    simp only [List.map_cons, PQ.execAll]
    exact ⟨by rw [g1, this.1], this.2⟩

theorem PQRun.map {less : T → T → Bool} {less' : U → U → Bool} (hf : ∀ a b, less' (f a) (f b) = less a b)
    {m m' : List T} {ops : List (PQOp T)} {obs : List (PQObs T)} (h : PQRun less m ops obs m') :
    PQRun less' (m.map f) (ops.map (PQOp.map f)) (obs.map (PQObs.map f)) (m'.map f) := by
  induction h with
  | nil m => exact .nil _
  | cons m op ob m' ops obs m'' hs _ ih =>
    refine .cons _ _ _ _ _ _ _ ?_ ih
    cases hs with
    | push _ v _ hp => exact .push _ _ _ (by simpa using hp.map f)
    | pop _ r _ hp hm =>
      refine .pop _ _ _ (by simpa using hp.map f) ?_
      intro y hy
      obtain ⟨z, hz, e⟩ := List.mem_map.1 hy
      rw [← e, hf]; exact hm z hz
    | popEmpty => exact .popEmpty
    | top _ r hr hm =>
      refine .top _ _ (List.mem_map_of_mem hr) ?_
      intro y hy
      obtain ⟨z, hz, e⟩ := List.mem_map.1 hy
      rw [← e, hf]; exact hm z hz
    | topEmpty => exact .topEmpty
    | clear => exact .clear _
    | len =>
      have := PQStep.len (less := less') (m.map f)
      rwa [List.length_map] at this
    | isEmpty =>
      have := PQStep.isEmpty (less := less') (m.map f)
      simpa [PQObs.map, PQOp.map] using this

theorem PQOp.lift {P : T → Prop} (ops : List (PQOp T)) (h : ∀ v, PQOp.push v ∈ ops → P v) :
    ∃ ops' : List (PQOp { x // P x }), ops = ops'.map (PQOp.map Subtype.val) := by
  induction ops with
  | nil => exact ⟨[], rfl⟩
  | cons op ops ih =>
    obtain ⟨ops', e⟩ := ih (fun v hv => h v (List.mem_cons_of_mem _ hv))
    subst e
    cases op with
    | push v => exact ⟨.push ⟨v, h v (List.mem_cons_self ..)⟩ :: ops', rfl⟩
    | pop => exact ⟨.pop :: ops', rfl⟩
    | top => exact ⟨.top :: ops', rfl⟩
    | clear => exact ⟨.clear :: ops', rfl⟩
    | len => exact ⟨.len :: ops', rfl⟩
    | isEmpty => exact ⟨.isEmpty :: ops', rfl⟩

end Stl4go
