import Verif.Proofs.BuiltinSet
import Verif.Proofs.Simple
/-!
# Properties C75–C80: `/repo/builtin_set.go`

`rt` makes the choices of the Go runtime: any order of the keys in every loop, and whether assigning replaces an equal key.
-/
namespace Stl4go
variable {K σ : Type} [GoEq K]

/-! ## C75 -/

/-- C75: all results of a history on any number of sets are those of mathematical sets. -/
theorem C75_history [LawfulGoEq K] (rt : MapRt K) (hrt : rt.Fair) (ops : List (BOp K)) (hl : BState.empty.Legal ops) :
    BState.empty.Matches ops (MWorld.empty.run rt ops) :=
  MWorld.run_ok rt hrt ops _ _ BRel.empty hl

/-- C75: in particular the size is well defined, so `Len`, `InsertN` and `RemoveN` have only one right result. -/
theorem C75_size [LawfulGoEq K] (S : K → Bool) (n n' : Int) (h : HasSize S n) (h' : HasSize S n') : n = n' := h.unique h'

/-- C75: `Insert` is true for a new element only, and then adds one to `Len`; `Remove` is true for a member only, and then takes one. -/
theorem C75_insert_remove [LawfulGoEq K] (rt : MapRt K) (w : MWorld K) (hw : w.Proper) (i : Nat) (k : K) :
    (∃ w', bsInsert rt (some i) k w = .ok (!w.set (some i) k) w' ∧ w'.Proper ∧ (∀ x, w'.set (some i) x = (w.set (some i) x || GoEq.eq x k)) ∧
      (w'.maps i).length = (w.maps i).length + (if w.set (some i) k then 0 else 1) ∧ ∀ j, j ≠ i → w'.maps j = w.maps j) ∧
    (∃ w', bsRemove (some i) k w = .ok (w.set (some i) k) w' ∧ w'.Proper ∧ (∀ x, w'.set (some i) x = (w.set (some i) x && !GoEq.eq x k)) ∧
      (w'.maps i).length + (if w.set (some i) k then 1 else 0) = (w.maps i).length ∧ ∀ j, j ≠ i → w'.maps j = w.maps j) := by
  have h := hw.rel
  have ha := (h.2 i).assign rt.replace k
  have hd := (h.2 i).delete k
  constructor
  · refine ⟨_, ?_, (h.put i ha.1).proper, fun x => ?_, ?_, fun j hj => ?_⟩
    · rw [bsInsert_eq, ha.2]
      congr 1
      show decide ((w.maps i).length + (if w.set (some i) k = true then 0 else 1) > (w.maps i).length) = _
      rcases Bool.eq_false_or_eq_true (w.set (some i) k) with e | e <;> rw [e] <;> simp
    · rw [(h.put i ha.1).set]
      simp [BState.of, BState.change]
    · rw [MWorld.put_maps]; exact ha.2
    · simp [MWorld.put, hj]
  · refine ⟨_, rfl, (h.put i hd).proper, fun x => ?_, ?_, fun j hj => ?_⟩
    · show ((w.put i _).set (some i) x) = _
      rw [(h.put i hd).set]
      simp [BState.of, BState.change]
    · show ((w.put i _).maps i).length + _ = _
      rw [MWorld.put_maps]; exact (h.2 i).delete_length k
    · show (w.put i _).maps j = _
      simp [MWorld.put, hj]

/-- A runtime that visits keys backwards in odd loops, and replaces keys. -/
def zigzag : MapRt K := { order := fun n l => if n % 2 = 1 then l.reverse else l, replace := true }

omit [GoEq K] in
theorem zigzag_fair : (zigzag : MapRt K).Fair := by
  intro n l
  simp only [zigzag]
  split
  · exact List.reverse_perm l
  · exact .refl l

example : BState.empty.Matches [BOp.setOf [3, 1, 3], .insert (some 0) 7, .union (some 0) (some 0), .inter (some 1) none, .subset (some 2) (some 0), .len (some 0)]
    (MWorld.empty.run (zigzag : MapRt Nat) [BOp.setOf [3, 1, 3], .insert (some 0) 7, .union (some 0) (some 0), .inter (some 1) none, .subset (some 2) (some 0), .len (some 0)]) :=
  C75_history _ zigzag_fair _ (by simp [BState.Legal, BOp.Valid, RefOk, BState.step, BState.new, BState.change, BState.empty])

example : (MWorld.empty.run (zigzag : MapRt Nat) [.setOf [3, 1, 3], .insert (some 0) 7, .insert (some 0) 7, .len (some 0), .keys (some 0), .keys (some 0),
      .removeN (some 0) [1, 9, 1], .len (some 0), .insert none 3])
    = [.ref (some 0), .flag true, .flag false, .num 3, .keys [3, 1, 7], .keys [7, 1, 3], .num 1, .num 2, .panicked] := rfl

/-! ## C76 -/

/-- C76: `Union` returns a new set with the elements of either; no existing set changes. -/
theorem C76_union [LawfulGoEq K] (rt : MapRt K) (hrt : rt.Fair) (w : MWorld K) (hw : w.Proper) (r o : MRef) (hr : RefOk w.next r) (ho : RefOk w.next o) :
    ∃ w', bsUnion rt r o w = .ok (some w.next) w' ∧ w'.next = w.next + 1 ∧ w'.Proper ∧ (∀ k, w'.set (some w.next) k = (w.set r k || w.set o k)) ∧
      ∀ i, i ≠ w.next → w'.maps i = w.maps i := by
  have h := hw.rel
  have hs := (BOp.call_ok rt hrt (.union r o) w _ h ⟨hr, ho⟩).2
  have he := bsUnion_eq rt w r o hr.ne ho.ne
  refine ⟨_, he, rfl, ?_, fun k => ?_, fun i hi => ?_⟩
  · have := hs.proper
    simpa only [BOp.call, BOp.exec, GoM.bind_def, he, GoM.pure_apply] using this
  · simp only [BOp.call, BOp.exec, GoM.bind_def, he, GoM.pure_apply] at hs
    rw [hs.set]
    simp only [BState.step, BState.new, MWorld.set_of]
    simp [BState.of]
  · simp [MWorld.put, hi]

/-- C76: `Intersection` returns a new set with the common elements; no existing set changes. -/
theorem C76_intersection [LawfulGoEq K] (rt : MapRt K) (hrt : rt.Fair) (w : MWorld K) (hw : w.Proper) (r o : MRef) (hr : RefOk w.next r) (ho : RefOk w.next o) :
    ∃ w', bsIntersection rt r o w = .ok (some w.next) w' ∧ w'.next = w.next + 1 ∧ w'.Proper ∧ (∀ k, w'.set (some w.next) k = (w.set r k && w.set o k)) ∧
      ∀ i, i ≠ w.next → w'.maps i = w.maps i := by
  have h := hw.rel
  have hs := (BOp.call_ok rt hrt (.inter r o) w _ h ⟨hr, ho⟩).2
  obtain ⟨_, _, _, he⟩ := bsInter_eq rt w r o hr.ne ho.ne
  refine ⟨_, he, rfl, ?_, fun k => ?_, fun i hi => ?_⟩
  · have := hs.proper
    simpa only [BOp.call, BOp.exec, GoM.bind_def, he, GoM.pure_apply] using this
  · simp only [BOp.call, BOp.exec, GoM.bind_def, he, GoM.pure_apply] at hs
    rw [hs.set]
    simp only [BState.step, BState.new, MWorld.set_of]
    simp [BState.of]
  · simp [MWorld.put, hi]

/-- C76: `Difference` returns a new set with the elements of the first that are not in the second; no existing set changes. -/
theorem C76_difference [LawfulGoEq K] (rt : MapRt K) (hrt : rt.Fair) (w : MWorld K) (hw : w.Proper) (r o : MRef) (hr : RefOk w.next r) (ho : RefOk w.next o) :
    ∃ w', bsDifference rt r o w = .ok (some w.next) w' ∧ w'.next = w.next + 1 ∧ w'.Proper ∧ (∀ k, w'.set (some w.next) k = (w.set r k && !w.set o k)) ∧
      ∀ i, i ≠ w.next → w'.maps i = w.maps i := by
  have h := hw.rel
  have hs := (BOp.call_ok rt hrt (.diff r o) w _ h ⟨hr, ho⟩).2
  have he := bsDiff_eq rt w r o hr.ne ho.ne
  refine ⟨_, he, rfl, ?_, fun k => ?_, fun i hi => ?_⟩
  · have := hs.proper
    simpa only [BOp.call, BOp.exec, GoM.bind_def, he, GoM.pure_apply] using this
  · simp only [BOp.call, BOp.exec, GoM.bind_def, he, GoM.pure_apply] at hs
    rw [hs.set]
    simp only [BState.step, BState.new, MWorld.set_of]
    simp [BState.of]
  · simp [MWorld.put, hi]

/-- C76: the worlds of the theorems above are those that histories lead to. -/
theorem C76_reachable [LawfulGoEq K] (rt : MapRt K) (hrt : rt.Fair) (ops : List (BOp K)) (hl : BState.empty.Legal ops) :
    (MWorld.empty.after rt ops).Proper := by
  obtain ⟨st, h⟩ := MWorld.after_ok rt hrt ops _ _ BRel.empty hl
  exact h.proper

example : (MWorld.empty.run (zigzag : MapRt Nat) [.setOf [1, 2, 3], .setOf [3, 4], .inter (some 0) (some 1), .keys (some 2), .diff (some 0) (some 1), .keys (some 3),
      .union (some 1) (some 0), .keys (some 4), .keys (some 0), .keys (some 1)])
    = [.ref (some 0), .ref (some 1), .ref (some 2), .keys [3], .ref (some 3), .keys [2, 1], .ref (some 4), .keys [3, 4, 2, 1], .keys [3, 2, 1], .keys [3, 4]] := by
  decide +kernel

/-! ## C77 -/

/-- C77: `IsSubsetOf`. -/
theorem C77_subset [LawfulGoEq K] (rt : MapRt K) (hrt : rt.Fair) (w : MWorld K) (hw : w.Proper) (r o : MRef) :
    ∃ b w', bsIsSubsetOf rt r o w = .ok b w' ∧ (b = true ↔ ∀ k, w.set r k = true → w.set o k = true) ∧ w'.maps = w.maps := by
  have h := hw.rel
  obtain ⟨n, he⟩ := bsSubset_eq rt w r o
  refine ⟨_, _, he, ?_, rfl⟩
  have e : (fun k => (w.keysOf o).any (fun e => GoEq.eq k e)) = w.set o := rfl
  have h1 : Lists (w.set r) (w.keysOf r) := by rw [h.set]; exact h.of r
  have h2 : Lists (w.set o) (w.keysOf o) := by rw [h.set]; exact h.of o
  rw [Bool.and_eq_true, e, all_lists (h1.perm (hrt _ _)) _ (fun a b hab => h2.congr hab)]
  refine ⟨fun hh => hh.2, fun hh => ⟨?_, hh⟩⟩
  have := h1.length_le h2 hh
  simp
  omega

/-- C77: `IsSupersetOf`. -/
theorem C77_superset [LawfulGoEq K] (rt : MapRt K) (hrt : rt.Fair) (w : MWorld K) (hw : w.Proper) (r o : MRef) :
    ∃ b w', bsIsSupersetOf rt r o w = .ok b w' ∧ (b = true ↔ ∀ k, w.set o k = true → w.set r k = true) ∧ w'.maps = w.maps :=
  C77_subset rt hrt w hw o r

/-- C77: `IsDisjointOf`. -/
theorem C77_disjoint [LawfulGoEq K] (rt : MapRt K) (hrt : rt.Fair) (w : MWorld K) (hw : w.Proper) (r o : MRef) :
    ∃ b w', bsIsDisjointOf rt r o w = .ok b w' ∧ (b = true ↔ ¬ ∃ k, w.set r k = true ∧ w.set o k = true) ∧ w'.maps = w.maps := by
  have h := hw.rel
  have h0 : ∀ r, Lists (w.set r) (w.keysOf r) := fun r => by rw [h.set]; exact h.of r
  obtain ⟨small, large, hsl, he⟩ := bsDisjoint_eq rt w r o
  refine ⟨_, _, he, ?_, rfl⟩
  have e : (fun k => !(w.keysOf large).any (fun e => GoEq.eq k e)) = fun k => !w.set large k := rfl
  rw [e, all_lists ((h0 small).perm (hrt _ _)) _ (fun a b hab => by rw [(h0 large).congr hab]), not_exists]
  refine forall_congr' fun k => ?_
  rcases hsl with ⟨rfl, rfl⟩ | ⟨rfl, rfl⟩ <;> cases w.set small k <;> cases w.set large k <;> simp

example : (MWorld.empty.run (zigzag : MapRt Nat) [.setOf [1, 2, 3], .setOf [3, 2], .subset (some 0) (some 1), .subset (some 1) (some 0), .superset (some 0) (some 1),
      .disjoint (some 0) (some 1), .setOf [7], .disjoint (some 2) (some 1), .subset (some 2) (some 1), .subset none none])
    = [.ref (some 0), .ref (some 1), .flag false, .flag true, .flag true, .flag false, .ref (some 2), .flag true, .flag false, .flag true] := by
  decide +kernel

/-! ## C78 -/

/-- C78: `Keys` lists each element once, the set staying as it is. -/
theorem C78_keys [LawfulGoEq K] (rt : MapRt K) (hrt : rt.Fair) (w : MWorld K) (hw : w.Proper) (r : MRef) :
    ∃ l w', bsKeys rt r w = .ok l w' ∧ Lists (w.set r) l ∧ w'.maps = w.maps := by
  have h0 : Lists (w.set r) (w.keysOf r) := by rw [hw.rel.set]; exact hw.rel.of r
  refine ⟨_, _, rfl, ?_, rfl⟩
  rw [keysLoop_eq, List.nil_append]
  exact h0.perm (hrt _ _)

/-- C78: `ForEach` calls the callback once for each element, whatever the callback does with its own state. -/
theorem C78_forEach [LawfulGoEq K] (rt : MapRt K) (hrt : rt.Fair) (w : MWorld K) (hw : w.Proper) (r : MRef) (cb : σ → K → σ) (t : σ) :
    ∃ l w', Lists (w.set r) l ∧ bsForEach rt r cb t w = .ok (l.foldl cb t) w' ∧ w'.maps = w.maps := by
  have h0 : Lists (w.set r) (w.keysOf r) := by rw [hw.rel.set]; exact hw.rel.of r
  refine ⟨_, { w with loops := w.loops + 1 }, h0.perm (hrt w.loops _), ?_, rfl⟩
  rw [← bsForEachLoop_eq]
  rfl

/-- C78: `ForEachIf` does so up to and including the first for which the callback returns false. -/
theorem C78_forEachIf [LawfulGoEq K] (rt : MapRt K) (hrt : rt.Fair) (w : MWorld K) (hw : w.Proper) (r : MRef) (cb : σ → K → σ × Bool) (t : σ) :
    ∃ l w', Lists (w.set r) l ∧ bsForEachIf rt r cb t w = .ok (visitWhile1 cb t l) w' ∧ w'.maps = w.maps := by
  have h0 : Lists (w.set r) (w.keysOf r) := by rw [hw.rel.set]; exact hw.rel.of r
  refine ⟨_, { w with loops := w.loops + 1 }, h0.perm (hrt w.loops _), ?_, rfl⟩
  rw [← bsForEachIfLoop_eq]
  rfl

omit [GoEq K] in
/-- C78: every order can occur. -/
theorem C78_any_order (l l' : List K) (h : l'.Perm l) [DecidableEq K] : ∃ rt : MapRt K, rt.Fair ∧ ∀ (w : MWorld K) (r : MRef), w.keysOf r = l →
    ∃ w', bsKeys rt r w = .ok l' w' := by
  refine ⟨{ order := fun _ x => if x = l then l' else x, replace := true }, ?_, ?_⟩
  · intro n x
    simp only
    split
    · rename_i e; rw [e]; exact h
    · exact .refl x
  · intro w r hk
    refine ⟨{ w with loops := w.loops + 1 }, ?_⟩
    simp only [bsKeys, mapRange, GoM.bind_def, hk, if_true, keysLoop_eq, List.nil_append, GoM.pure_apply]

/-! ## C79 -/

/-- C79 as stated: `Clear` leaves an empty set for every comparable key type, whatever the set. -/
def C79_statement : Prop := ∀ (K : Type) [GoEq K] (rt : MapRt K) (w : MWorld K) (i : Nat), rt.Fair →
  ∃ w', (do bsClear rt (some i); bsLen (some i)) w = .ok 0 w'

/-- C79 is false: a NaN key stays in the set. -/
theorem C79_counterexample : ¬ C79_statement := by
  intro h
  obtain ⟨w', h'⟩ := h NanInt zigzag { maps := fun _ => [.nan], next := 1, loops := 0 } 0 zigzag_fair
  have : (do bsClear (zigzag : MapRt NanInt) (some 0); bsLen (some 0)) { maps := fun _ => [.nan], next := 1, loops := 0 }
      = .ok 1 { maps := fun j => if j = 0 then [NanInt.nan] else [.nan], next := 1, loops := 1 } := rfl
  rw [this] at h'
  injection h' with h1 _
  revert h1
  decide

/-- C79 for keys equal to themselves: `Clear` leaves the empty set. Missing: sets with NaN keys, for which it is false. -/
theorem C79_clear_partial (rt : MapRt K) (hrt : rt.Fair) (w : MWorld K) (i : Nat) (hk : ∀ k ∈ w.maps i, GoEq.eq k k = true) :
    ∃ w', (do bsClear rt (some i); bsLen (some i)) w = .ok 0 w' ∧ w'.maps i = [] ∧ ∀ j, j ≠ i → w'.maps j = w.maps j := by
  have key : ∀ (ks l : List K), (∀ k ∈ l, k ∈ ks) → (∀ k ∈ l, GoEq.eq k k = true) → ks.foldl (fun l k => l.filter (fun e => !GoEq.eq k e)) l = [] := by
    intro ks
    induction ks with
    | nil =>
      intro l h1 _
      cases l with
      | nil => rfl
      | cons a l => exact absurd (h1 a (by simp)) (by simp)
    | cons k ks ih =>
      intro l h1 h2
      rw [List.foldl_cons]
      refine ih _ (fun x hx => ?_) (fun x hx => h2 x (List.mem_filter.1 hx).1)
      obtain ⟨hx', hn⟩ := List.mem_filter.1 hx
      rcases List.mem_cons.1 (h1 x hx') with rfl | hm
      · rw [h2 x hx'] at hn; simp at hn
      · exact hm
  have e := key (rt.order w.loops (w.maps i)) (w.maps i) (fun k hk => (hrt _ _).mem_iff.2 hk) hk
  refine ⟨{ w.put i [] with loops := w.loops + 1 }, ?_, by simp [MWorld.put], fun j hj => by simp [MWorld.put, hj]⟩
  simp only [GoM.bind_def, bsClear, mapRange, MWorld.keysOf, deleteAll_eq, bsLen, mapLen, MWorld.put_maps, e]
  rfl

/-- C79: in general exactly the keys not equal to themselves stay. -/
theorem C79_survivors (rt : MapRt K) (hrt : rt.Fair) (hs : ∀ a b : K, GoEq.eq a b = true → GoEq.eq b b = true) (w : MWorld K) (i : Nat) :
    ∃ w', bsClear rt (some i) w = .ok () w' ∧ w'.maps i = (w.maps i).filter (fun k => !GoEq.eq k k) := by
  have key : ∀ (ks l : List K), ks.foldl (fun l k => l.filter (fun e => !GoEq.eq k e)) l = l.filter (fun e => ks.all (fun k => !GoEq.eq k e)) := by
    intro ks
    induction ks with
    | nil => intro l; exact (List.filter_eq_self.2 (fun _ _ => rfl)).symm
    | cons k ks ih =>
      intro l
      rw [List.foldl_cons, ih, List.filter_filter]
      congr 1
      funext e
      simp [Bool.and_comm]
  refine ⟨{ w.put i ((w.maps i).filter (fun k => !GoEq.eq k k)) with loops := w.loops + 1 }, ?_, by simp [MWorld.put]⟩
  have e : (rt.order w.loops (w.maps i)).foldl (fun l k => l.filter (fun e => !GoEq.eq k e)) (w.maps i) = (w.maps i).filter (fun k => !GoEq.eq k k) := by
    rw [key]
    refine List.filter_congr fun x hx => ?_
    rw [Bool.eq_iff_iff, List.all_eq_true]
    constructor
    · intro h; exact h x ((hrt _ _).mem_iff.2 hx)
    · intro h k _
      rcases Bool.eq_false_or_eq_true (GoEq.eq k x) with h1 | h1
      · rw [hs k x h1] at h; simp at h
      · rw [h1]; rfl
  simp only [bsClear, mapRange, MWorld.keysOf, GoM.bind_def, deleteAll_eq, e]
  rfl

example : ∃ w', bsClear (zigzag : MapRt NanInt) (some 0) { maps := fun _ => [.nan, .num 1, .nan, .num 2], next := 1, loops := 0 } = .ok () w' ∧
    w'.maps 0 = [.nan, .nan] := ⟨_, rfl, rfl⟩

/-! ## C80 -/

/-- C80: the nil set answers like the empty set, and stays nil. -/
theorem C80_reads [LawfulGoEq K] (rt : MapRt K) (hrt : rt.Fair) (w : MWorld K) (k : K) (ks : List K) (cb : σ → K → σ) (cb' : σ → K → σ × Bool) (t : σ) :
    bsLen none w = .ok 0 w ∧ bsIsEmpty none w = .ok true w ∧ bsHas none k w = .ok false w ∧ bsRemove none k w = .ok false w ∧
    bsDelete none k w = .ok () w ∧ bsRemoveN none ks w = .ok 0 w ∧
    (∃ n, bsClear rt none w = .ok () { w with loops := n }) ∧ (∃ n, bsKeys rt none w = .ok [] { w with loops := n }) ∧
    (∃ n, bsForEach rt none cb t w = .ok t { w with loops := n }) ∧ (∃ n, bsForEachIf rt none cb' t w = .ok t { w with loops := n }) := by
  have e : rt.order w.loops [] = [] := (hrt w.loops []).eq_nil
  refine ⟨rfl, rfl, rfl, rfl, rfl, ?_, ⟨w.loops + 1, ?_⟩, ⟨w.loops + 1, ?_⟩, ⟨w.loops + 1, ?_⟩, ⟨w.loops + 1, ?_⟩⟩
  · simp [bsRemoveN, mapLen, GoM.bind_def, deleteAll_nil, MWorld.keysOf]
  · simp [bsClear, mapRange, GoM.bind_def, deleteAll_nil]
  · simp [bsKeys, mapRange, GoM.bind_def, MWorld.keysOf, e, keysLoop]
  · simp [bsForEach, mapRange, GoM.bind_def, MWorld.keysOf, e, bsForEachLoop]
  · simp [bsForEachIf, mapRange, GoM.bind_def, MWorld.keysOf, e, bsForEachIfLoop]

/-- C80: `Insert` panics on the nil set; `InsertN` and `Update` exactly if there is something to insert. Nothing changes. -/
theorem C80_writes (rt : MapRt K) (hrt : rt.Fair) (w : MWorld K) (k : K) (ks : List K) (o : MRef) :
    bsInsert rt none k w = .panic w ∧ (bsInsertN rt none ks w = if ks.length = 0 then .ok 0 w else .panic w) ∧
    (bsUpdate rt none o w = if (w.keysOf o).length = 0 then .ok () { w with loops := w.loops + 1 } else .panic { w with loops := w.loops + 1 }) := by
  refine ⟨rfl, ?_, ?_⟩
  · cases ks <;> simp [bsInsertN, mapLen, setAll, mapSet, GoM.bind_def]
  · have hl := (hrt w.loops (w.keysOf o)).length_eq
    simp only [bsUpdate, mapRange, GoM.bind_def]
    cases hk : rt.order w.loops (w.keysOf o) with
    | nil =>
      rw [hk] at hl
      rw [← hl]
      rfl
    | cons a l =>
      rw [hk] at hl
      rw [← hl]
      simp [setAll, mapSet, GoM.bind_def]

/-- C80: as operand, nil is the empty set. -/
theorem C80_operand [LawfulGoEq K] (rt : MapRt K) (hrt : rt.Fair) (w : MWorld K) (hw : w.Proper) (r : MRef) (hr : RefOk w.next r) :
    (∃ w', bsIsSubsetOf rt none r w = .ok true w') ∧
    (∃ b w', bsIsSubsetOf rt r none w = .ok b w' ∧ (b = true ↔ ∀ k, w.set r k = false)) ∧
    (∃ w', bsIsDisjointOf rt none r w = .ok true w') ∧ (∃ w', bsIsDisjointOf rt r none w = .ok true w') ∧
    (∃ w', bsUnion rt r none w = .ok (some w.next) w' ∧ ∀ k, w'.set (some w.next) k = w.set r k) ∧
    (∃ w', bsUnion rt none r w = .ok (some w.next) w' ∧ ∀ k, w'.set (some w.next) k = w.set r k) ∧
    (∃ w', bsIntersection rt r none w = .ok (some w.next) w' ∧ ∀ k, w'.set (some w.next) k = false) ∧
    (∃ w', bsDifference rt r none w = .ok (some w.next) w' ∧ ∀ k, w'.set (some w.next) k = w.set r k) ∧
    (∃ w', bsDifference rt none r w = .ok (some w.next) w' ∧ ∀ k, w'.set (some w.next) k = false) := by
  have hn : ∀ k, w.set none k = false := fun _ => rfl
  refine ⟨?_, ?_, ?_, ?_, ?_, ?_, ?_, ?_, ?_⟩
  · obtain ⟨b, w', e, h, _⟩ := C77_subset rt hrt w hw none r
    rw [h.2 (fun k hk => by rw [hn k] at hk; cases hk)] at e
    exact ⟨w', e⟩
  · obtain ⟨b, w', e, h, _⟩ := C77_subset rt hrt w hw r none
    refine ⟨b, w', e, h.trans (forall_congr' fun k => ?_)⟩
    rw [hn k]
    cases w.set r k <;> simp
  · obtain ⟨b, w', e, h, _⟩ := C77_disjoint rt hrt w hw none r
    rw [h.2 (fun ⟨k, hk, _⟩ => by rw [hn k] at hk; cases hk)] at e
    exact ⟨w', e⟩
  · obtain ⟨b, w', e, h, _⟩ := C77_disjoint rt hrt w hw r none
    rw [h.2 (fun ⟨k, _, hk⟩ => by rw [hn k] at hk; cases hk)] at e
    exact ⟨w', e⟩
  · obtain ⟨w', e, _, _, h, _⟩ := C76_union rt hrt w hw r none hr trivial
    exact ⟨w', e, fun k => by rw [h, hn k, Bool.or_false]⟩
  · obtain ⟨w', e, _, _, h, _⟩ := C76_union rt hrt w hw none r trivial hr
    exact ⟨w', e, fun k => by rw [h, hn k, Bool.false_or]⟩
  · obtain ⟨w', e, _, _, h, _⟩ := C76_intersection rt hrt w hw r none hr trivial
    exact ⟨w', e, fun k => by rw [h, hn k, Bool.and_false]⟩
  · obtain ⟨w', e, _, _, h, _⟩ := C76_difference rt hrt w hw r none hr trivial
    exact ⟨w', e, fun k => by rw [h, hn k, Bool.not_false, Bool.and_true]⟩
  · obtain ⟨w', e, _, _, h, _⟩ := C76_difference rt hrt w hw none r trivial hr
    exact ⟨w', e, fun k => by rw [h, hn k, Bool.false_and]⟩

example : (MWorld.empty.run (zigzag : MapRt Nat) [.setOf [1, 2], .len none, .remove none 1, .clear none, .insertN none [], .insertN none [1], .insert none 1,
      .update none none, .update none (some 0), .union none (some 0), .len (some 1), .len none])
    = [.ref (some 0), .num 0, .flag false, .unit, .num 0, .panicked, .panicked, .unit, .panicked, .ref (some 1), .num 2, .num 0] := by
  decide +kernel

end Stl4go
