import Verif.Proofs.BuiltinSetKeys
import Verif.Props.BuiltinSet
/-!
# Property C161: which keys set algebra keeps, and what it costs

Keys may be equal without being the same (-0 and +0, or interfaces holding them) and may differ from themselves (NaN), so the results of
C76 do not say everything. `among l k`: some key of the list is equal to `k`.
-/
namespace Stl4go
variable {K : Type} [GoEq K]

/-- C161: `Intersection` keeps keys of the smaller set, of `other` if there is no smaller one; NaN keys are never in it. -/
theorem C161_intersection [PartialGoEq K] (rt : MapRt K) (hrt : rt.Fair) (w : MWorld K) (hw : w.Proper) (s o : MRef) (hs : RefOk w.next s) (ho : RefOk w.next o) :
    ∃ w', bsIntersection rt s o w = .ok (some w.next) w' ∧ (w'.maps w.next).Perm (if (w.keysOf s).length < (w.keysOf o).length
      then (w.keysOf s).filter (among (w.keysOf o)) else (w.keysOf o).filter (among (w.keysOf s))) ∧
      ∀ k ∈ w'.maps w.next, GoEq.eq k k = true := by
  obtain ⟨w', h1, h2⟩ := inter_keys rt hrt w hw s o hs.ne ho.ne
  refine ⟨w', h1, h2, fun k hk => ?_⟩
  have h3 := h2.mem_iff.1 hk
  have h4 : ∃ l : List K, among l k = true := by
    split at h3
    · exact ⟨_, (List.mem_filter.1 h3).2⟩
    · exact ⟨_, (List.mem_filter.1 h3).2⟩
  obtain ⟨l, h4⟩ := h4
  obtain ⟨e, _, he⟩ := List.any_eq_true.1 h4
  exact PartialGoEq.trans _ _ _ he (PartialGoEq.symm _ _ he)

/-- C161: `Difference` keeps keys of the set, all its NaN keys among them. -/
theorem C161_difference [PartialGoEq K] (rt : MapRt K) (hrt : rt.Fair) (w : MWorld K) (hw : w.Proper) (s o : MRef) (hs : RefOk w.next s) (ho : RefOk w.next o) :
    ∃ w', bsDifference rt s o w = .ok (some w.next) w' ∧ (w'.maps w.next).Perm ((w.keysOf s).filter (fun k => !among (w.keysOf o) k)) ∧
      ∀ k ∈ w.keysOf s, GoEq.eq k k = false → k ∈ w'.maps w.next := by
  obtain ⟨w', h1, h2⟩ := diff_keys rt hrt w hw s o hs.ne ho.ne
  refine ⟨w', h1, h2, fun k hk hn => h2.mem_iff.2 (List.mem_filter.2 ⟨hk, ?_⟩)⟩
  rw [Bool.not_eq_true', among_false]
  intro e _
  rcases Bool.eq_false_or_eq_true (GoEq.eq k e) with h | h
  · rw [PartialGoEq.trans _ _ _ h (PartialGoEq.symm _ _ h)] at hn; cases hn
  · exact h

/-- C161: of two equal keys `Union` keeps the one of the set, or the one of `other` if assigning replaces keys; all NaN keys of both. -/
theorem C161_union [PartialGoEq K] (rt : MapRt K) (hrt : rt.Fair) (w : MWorld K) (hw : w.Proper) (s o : MRef) (hs : RefOk w.next s) (ho : RefOk w.next o) :
    ∃ w', bsUnion rt s o w = .ok (some w.next) w' ∧ (w'.maps w.next).Perm (if rt.replace
      then (w.keysOf s).filter (fun k => !among (w.keysOf o) k) ++ w.keysOf o
      else w.keysOf s ++ (w.keysOf o).filter (fun k => !among (w.keysOf s) k)) :=
  union_keys rt hrt w hw s o hs.ne ho.ne

/-- C161: likewise `Update` with another set (a set with NaN keys given to its own `Update` changes during the loop, see C130). -/
theorem C161_update [PartialGoEq K] (rt : MapRt K) (hrt : rt.Fair) (w : MWorld K) (hw : w.Proper) (i : Nat) (o : MRef) (_hio : o ≠ some i) :
    ∃ w', bsUpdate rt (some i) o w = .ok () w' ∧ (w'.maps i).Perm (if rt.replace
      then (w.maps i).filter (fun k => !among (w.keysOf o) k) ++ w.keysOf o
      else w.maps i ++ (w.keysOf o).filter (fun k => !among (w.maps i) k)) :=
  update_keys rt hrt w hw i o

/-- C161: `Len` of the results adds up, with NaN keys too: |s ∪ o| + |s ∩ o| = |s| + |o|, and |s - o| + |s ∩ o| = |s|. -/
theorem C161_count [PartialGoEq K] (rt : MapRt K) (hrt : rt.Fair) (w : MWorld K) (hw : w.Proper) (s o : MRef) (hs : RefOk w.next s) (ho : RefOk w.next o) :
    ∃ wu wi wd, bsUnion rt s o w = .ok (some w.next) wu ∧ bsIntersection rt s o w = .ok (some w.next) wi ∧ bsDifference rt s o w = .ok (some w.next) wd ∧
      (wu.maps w.next).length + (wi.maps w.next).length = (w.keysOf s).length + (w.keysOf o).length ∧
      (wd.maps w.next).length + (wi.maps w.next).length = (w.keysOf s).length := by
  obtain ⟨wu, u1, u2⟩ := union_keys rt hrt w hw s o hs.ne ho.ne
  obtain ⟨wi, i1, i2⟩ := inter_keys rt hrt w hw s o hs.ne ho.ne
  obtain ⟨wd, d1, d2⟩ := diff_keys rt hrt w hw s o hs.ne ho.ne
  refine ⟨wu, wi, wd, u1, i1, d1, ?_⟩
  have hc := among_count (w.keysOf s) (w.keysOf o) (hw.apart s) (hw.apart o)
  have h1 := filter_length_not (w.keysOf s) (among (w.keysOf o))
  have h2 := filter_length_not (w.keysOf o) (among (w.keysOf s))
  have hi : (wi.maps w.next).length = ((w.keysOf s).filter (among (w.keysOf o))).length := by
    rw [i2.length_eq]; split
    · rfl
    · exact hc.symm
  rw [hi, u2.length_eq, d2.length_eq]
  split <;> simp only [List.length_append] <;> omega

/-- C161: `Intersection` looks up as many keys as the smaller set has, and assigns as many as the result has. -/
theorem C161_intersection_cost [PartialGoEq K] (rt : MapRt K) (hrt : rt.Fair) (w : MWorld K) (hw : w.Proper) (s o : MRef) (hs : RefOk w.next s) (ho : RefOk w.next o) (c : MCost) :
    ∃ w', bsIntersection rt s o w = .ok (some w.next) w' ∧ bsIntersectionC rt s o (w, c) = .ok (some w.next)
      (w', ⟨c.lookups + min (w.keysOf s).length (w.keysOf o).length, c.assigns + (w'.maps w.next).length⟩) := by
  have hs := hs.ne
  have ho := ho.ne
  have hks := fun a b l => MWorld.keysOf_new w w.next a b l s hs
  have hko := fun a b l => MWorld.keysOf_new w w.next a b l o ho
  have hfold : ∀ a b : MRef, ((rt.order w.loops (w.keysOf a)).filter (among (w.keysOf b))).foldl (assignKey rt.replace) [] =
      (rt.order w.loops (w.keysOf a)).filter (among (w.keysOf b)) := fun a b =>
    assign_apart rt.replace _ [] (((hw.apart a).perm (hrt _ _)).filter _) (fun k _ => rfl)
  have hfold' : ∀ a b : MRef, ((rt.order w.loops (w.keysOf a)).filter (fun k => (w.keysOf b).any (fun e => GoEq.eq k e))).foldl (assignKey rt.replace) [] =
      (rt.order w.loops (w.keysOf a)).filter (among (w.keysOf b)) := hfold
  by_cases hlt : ((w.keysOf s).length : Int) < (w.keysOf o).length
  · refine ⟨{ w.put w.next ((rt.order w.loops (w.keysOf s)).filter (among (w.keysOf o))) with next := w.next + 1, loops := w.loops + 1 }, ?_, ?_⟩
    · simp only [bsIntersection, GoM.bind_def, mapMake, orderSet, bsLen, mapLen, hks, hko, if_pos hlt, GoM.pure_apply,
        mapRange, interLoop_eq rt o _ ho, MWorld.put_maps, MWorld.put_loops, MWorld.put_new, hfold']
    · simp only [bsIntersectionC, costing, GoM.bind_def, mapMake, orderSet, bsLen, mapLen, hks, hko, if_pos hlt, GoM.pure_apply,
        mapRange, interLoopC_eq rt o _ ho, MWorld.put_maps, MWorld.put_loops, MWorld.put_new, hfold, (hrt _ _).length_eq]
      congr 3
      omega
  · refine ⟨{ w.put w.next ((rt.order w.loops (w.keysOf o)).filter (among (w.keysOf s))) with next := w.next + 1, loops := w.loops + 1 }, ?_, ?_⟩
    · simp only [bsIntersection, GoM.bind_def, mapMake, orderSet, bsLen, mapLen, hks, hko, if_neg hlt, GoM.pure_apply,
        mapRange, interLoop_eq rt s _ hs, MWorld.put_maps, MWorld.put_loops, MWorld.put_new, hfold']
    · simp only [bsIntersectionC, costing, GoM.bind_def, mapMake, orderSet, bsLen, mapLen, hks, hko, if_neg hlt, GoM.pure_apply,
        mapRange, interLoopC_eq rt s _ hs, MWorld.put_maps, MWorld.put_loops, MWorld.put_new, hfold, (hrt _ _).length_eq]
      congr 3
      omega

/-- C161: `Difference` looks up every key of the set once; `Union` looks up none and assigns every key of both. -/
theorem C161_difference_cost [PartialGoEq K] (rt : MapRt K) (hrt : rt.Fair) (w : MWorld K) (hw : w.Proper) (s o : MRef) (hs : RefOk w.next s) (ho : RefOk w.next o) (c : MCost) :
    (∃ w', bsDifference rt s o w = .ok (some w.next) w' ∧ bsDifferenceC rt s o (w, c) = .ok (some w.next)
      (w', ⟨c.lookups + (w.keysOf s).length, c.assigns + (w'.maps w.next).length⟩)) ∧
    ∃ w', bsUnion rt s o w = .ok (some w.next) w' ∧ bsUnionC rt s o (w, c) = .ok (some w.next)
      (w', ⟨c.lookups, c.assigns + (w.keysOf s).length + (w.keysOf o).length⟩) := by
  have hs := hs.ne
  have ho := ho.ne
  have hks := fun a b l => MWorld.keysOf_new w w.next a b l s hs
  have hko := fun a b l => MWorld.keysOf_new w w.next a b l o ho
  constructor
  · refine ⟨_, bsDiff_eq rt w s o hs ho, ?_⟩
    have hfold : ((rt.order w.loops (w.keysOf s)).filter (fun k => !among (w.keysOf o) k)).foldl (assignKey rt.replace) [] =
        (rt.order w.loops (w.keysOf s)).filter (fun k => !among (w.keysOf o) k) :=
      assign_apart rt.replace _ [] (((hw.apart s).perm (hrt _ _)).filter _) (fun k _ => rfl)
    have hfold' : ((rt.order w.loops (w.keysOf s)).filter (fun k => !(w.keysOf o).any (fun e => GoEq.eq k e))).foldl (assignKey rt.replace) [] =
        (rt.order w.loops (w.keysOf s)).filter (fun k => !among (w.keysOf o) k) := hfold
    simp only [bsDifferenceC, costing, GoM.bind_def, mapMake, hks, hko, GoM.pure_apply,
      mapRange, diffLoopC_eq rt o _ ho, MWorld.put_maps, MWorld.put_loops, MWorld.put_new, hfold, hfold', (hrt _ _).length_eq]
    rfl
  · refine ⟨_, bsUnion_eq rt w s o hs ho, ?_⟩
    simp only [bsUnionC, bsUpdateC, costing, GoM.bind_def, mapMake, hks, hko, GoM.pure_apply,
      mapRange, setAllC_eq rt (some w.next) w.next rfl, MWorld.put_maps, MWorld.put_loops, MWorld.put_new, List.foldl_append, (hrt _ _).length_eq]
    rfl

/-- C161: `IsDisjointOf` looks up at most as many keys as the smaller set has, and exactly that many if the sets are disjoint. -/
theorem C161_disjoint_cost (rt : MapRt K) (hrt : rt.Fair) (w : MWorld K) (s o : MRef) (c : MCost) :
    ∃ w' b n, bsIsDisjointOf rt s o w = .ok b w' ∧ bsIsDisjointOfC rt s o (w, c) = .ok b (w', ⟨c.lookups + n, c.assigns⟩) ∧
      n ≤ min (w.keysOf s).length (w.keysOf o).length ∧ (b = true → n = min (w.keysOf s).length (w.keysOf o).length) := by
  have hl : ∀ r n, MWorld.keysOf { w with loops := n } r = w.keysOf r := by intro r n; cases r <;> rfl
  have hb : ∀ (a b : MRef), upTo (among (w.keysOf b)) (rt.order w.loops (w.keysOf a)) ≤ (w.keysOf a).length ∧
      ((rt.order w.loops (w.keysOf a)).all (fun k => !among (w.keysOf b) k) = true → upTo (among (w.keysOf b)) (rt.order w.loops (w.keysOf a)) = (w.keysOf a).length) := by
    intro a b
    have h1 := (hrt w.loops (w.keysOf a)).length_eq
    refine ⟨by unfold upTo; omega, fun h => ?_⟩
    rw [upTo_all (by simpa using h), h1]
  by_cases hlt : ((w.keysOf s).length : Int) < (w.keysOf o).length
  · refine ⟨{ w with loops := w.loops + 1 }, (rt.order w.loops (w.keysOf s)).all (fun k => !among (w.keysOf o) k),
      upTo (among (w.keysOf o)) (rt.order w.loops (w.keysOf s)), ?_, ?_, ?_⟩
    · simp only [bsIsDisjointOf, GoM.bind_def, orderSet, bsLen, mapLen, if_pos hlt, GoM.pure_apply, mapRange, disjointLoop_eq, hl]
      rfl
    · simp only [bsIsDisjointOfC, costing, GoM.bind_def, orderSet, bsLen, mapLen, if_pos hlt, GoM.pure_apply, mapRange, disjointLoopC_eq, hl]
      rfl
    · rw [Nat.min_eq_left (by omega)]; exact hb s o
  · refine ⟨{ w with loops := w.loops + 1 }, (rt.order w.loops (w.keysOf o)).all (fun k => !among (w.keysOf s) k),
      upTo (among (w.keysOf s)) (rt.order w.loops (w.keysOf o)), ?_, ?_, ?_⟩
    · simp only [bsIsDisjointOf, GoM.bind_def, orderSet, bsLen, mapLen, if_neg hlt, GoM.pure_apply, mapRange, disjointLoop_eq, hl]
      rfl
    · simp only [bsIsDisjointOfC, costing, GoM.bind_def, orderSet, bsLen, mapLen, if_neg hlt, GoM.pure_apply, mapRange, disjointLoopC_eq, hl]
      rfl
    · rw [Nat.min_eq_right (by omega)]; exact hb o s

/-- C161: `IsSubsetOf` looks up no key if the set is larger than `other`, otherwise at most its own keys, and all of them if it is a subset. -/
theorem C161_subset_cost (rt : MapRt K) (hrt : rt.Fair) (w : MWorld K) (s o : MRef) (c : MCost) :
    ∃ w' b n, bsIsSubsetOf rt s o w = .ok b w' ∧ bsIsSubsetOfC rt s o (w, c) = .ok b (w', ⟨c.lookups + n, c.assigns⟩) ∧
      ((w.keysOf s).length > (w.keysOf o).length → n = 0) ∧ n ≤ (w.keysOf s).length ∧ (b = true → n = (w.keysOf s).length) := by
  have hl : ∀ r n, MWorld.keysOf { w with loops := n } r = w.keysOf r := by intro r n; cases r <;> rfl
  by_cases hlt : ((w.keysOf s).length : Int) > (w.keysOf o).length
  · refine ⟨w, false, 0, ?_, ?_, fun _ => rfl, Nat.zero_le _, nofun⟩
    · simp only [bsIsSubsetOf, GoM.bind_def, bsLen, mapLen, if_pos hlt, GoM.pure_apply]
    · simp only [bsIsSubsetOfC, costing, GoM.bind_def, bsLen, mapLen, if_pos hlt, GoM.pure_apply, Nat.add_zero]
  · refine ⟨{ w with loops := w.loops + 1 }, (rt.order w.loops (w.keysOf s)).all (among (w.keysOf o)),
      upTo (fun k => !among (w.keysOf o) k) (rt.order w.loops (w.keysOf s)), ?_, ?_, fun h => by omega, ?_⟩
    · simp only [bsIsSubsetOf, GoM.bind_def, bsLen, mapLen, if_neg hlt, mapRange, subsetLoop_eq, hl]
      rfl
    · simp only [bsIsSubsetOfC, costing, GoM.bind_def, bsLen, mapLen, if_neg hlt, mapRange, subsetLoopC_eq, hl, Nat.add_zero]
    · have h1 := (hrt w.loops (w.keysOf s)).length_eq
      refine ⟨by unfold upTo; omega, fun h => ?_⟩
      rw [upTo_all (by simpa using h), h1]

/-! ## Floating-point keys -/

/-- Some floating-point numbers. -/
inductive FKey
  | negZero | zero | one | nan
  deriving DecidableEq

instance : GoEq FKey := ⟨fun a b => match a, b with
  | .nan, _ => false
  | _, .nan => false
  | .one, .one => true
  | .one, _ => false
  | _, .one => false
  | _, _ => true⟩

instance : PartialGoEq FKey where
  symm := by intro a b; cases a <;> cases b <;> decide
  trans := by intro a b c; cases a <;> cases b <;> cases c <;> decide

/-- Three sets: {+0, NaN}, {-0, NaN}, {-0, 1, NaN}. -/
def fsets : MWorld FKey := { maps := fun i => if i = 0 then [.zero, .nan] else if i = 1 then [.negZero, .nan] else [.negZero, .one, .nan], next := 3, loops := 0 }

/-- The keys of the result. -/
def newKeys (r : Res (MWorld FKey) MRef) : List FKey := match r with
  | .ok s w => w.keysOf s
  | _ => []

/-- `Intersection` keeps the key of the smaller set, and otherwise of the argument, so it matters which set comes first. -/
example : (newKeys (bsIntersection zigzag (some 0) (some 1) fsets), newKeys (bsIntersection zigzag (some 1) (some 0) fsets),
    newKeys (bsIntersection zigzag (some 0) (some 2) fsets), newKeys (bsIntersection zigzag (some 2) (some 0) fsets)) =
    ([.negZero], [.zero], [.zero], [.zero]) := by decide +kernel

/-- `Union` with a runtime that replaces keys and with one that does not; both NaN keys are in it. -/
example : (newKeys (bsUnion zigzag (some 0) (some 1) fsets), newKeys (bsUnion { (zigzag : MapRt FKey) with replace := false } (some 0) (some 1) fsets),
    newKeys (bsDifference zigzag (some 2) (some 0) fsets)) =
    ([.negZero, .nan, .nan], [.zero, .nan, .nan], [.one, .nan]) := by decide +kernel

example : fsets.Proper ∧ RefOk fsets.next (some 0) ∧ RefOk fsets.next (some 2) := by
  refine ⟨fun i => ?_, ?_, ?_⟩
  · simp only [fsets]
    split
    · decide
    · split <;> decide
  · show 0 < 3; omega
  · show 2 < 3; omega

/-- A small set is looked up in a large one, whichever comes first. -/
example : (match bsIntersectionC zigzag (some 0) (some 2) (fsets, ⟨0, 0⟩), bsIntersectionC zigzag (some 2) (some 0) (fsets, ⟨0, 0⟩) with
    | .ok _ p, .ok _ q => [p.2, q.2]
    | _, _ => []) = [⟨2, 1⟩, ⟨2, 1⟩] := by decide +kernel

end Stl4go
