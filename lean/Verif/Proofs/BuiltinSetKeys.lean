import Verif.Model.BuiltinSetCost
import Verif.Spec.BuiltinSetKeys
import Verif.Proofs.BuiltinSet
/-! # Lemmas about the keys that sets keep -/
namespace Stl4go
variable {K α : Type} [GoEq K]

theorem peq_symm [PartialGoEq K] (a b : K) : GoEq.eq a b = GoEq.eq b a := by
  rcases Bool.eq_false_or_eq_true (GoEq.eq a b) with h | h
  · rw [h, PartialGoEq.symm _ _ h]
  · rcases Bool.eq_false_or_eq_true (GoEq.eq b a) with h2 | h2
    · rw [PartialGoEq.symm _ _ h2] at h; cases h
    · rw [h, h2]

theorem peq_congr [PartialGoEq K] {a b : K} (h : GoEq.eq a b = true) (c : K) : GoEq.eq a c = GoEq.eq b c := by
  rcases Bool.eq_false_or_eq_true (GoEq.eq b c) with h2 | h2
  · rw [h2, PartialGoEq.trans _ _ _ h h2]
  · rcases Bool.eq_false_or_eq_true (GoEq.eq a c) with h3 | h3
    · rw [PartialGoEq.trans _ _ _ (PartialGoEq.symm _ _ h) h3] at h2; cases h2
    · rw [h2, h3]

/-- No two keys are equal. -/
def NoTwins (l : List K) : Prop := l.Pairwise (fun x y => GoEq.eq x y = false)

theorem NoTwins.perm [PartialGoEq K] {l l' : List K} (h : NoTwins l) (hp : l'.Perm l) : NoTwins l' :=
  (hp.pairwise_iff (fun {x y} hxy => by rw [peq_symm]; exact hxy)).2 h

theorem NoTwins.filter {l : List K} (h : NoTwins l) (p : K → Bool) : NoTwins (l.filter p) := h.sublist List.filter_sublist

theorem among_perm {l l' : List K} (h : l.Perm l') (k : K) : among l k = among l' k := by
  unfold among
  rw [Bool.eq_iff_iff, List.any_eq_true, List.any_eq_true]
  simp only [h.mem_iff]

theorem among_append (l l' : List K) (k : K) : among (l ++ l') k = (among l k || among l' k) := by simp [among]

theorem among_false {l : List K} {k : K} : among l k = false ↔ ∀ e ∈ l, GoEq.eq k e = false := by simp [among]

theorem among_congr [PartialGoEq K] {a b : K} (h : GoEq.eq a b = true) (l : List K) : among l a = among l b := by
  unfold among; congr 1; funext e; exact peq_congr h e

/-- Assigning keys none of which is there. -/
theorem assign_apart [PartialGoEq K] (rep : Bool) (ks : List K) : ∀ l : List K, NoTwins ks → (∀ k ∈ ks, among l k = false) →
    ks.foldl (assignKey rep) l = l ++ ks := by
  induction ks with
  | nil => intro l _ _; simp
  | cons k ks ih =>
    intro l h hn
    have h1 : assignKey rep l k = l ++ [k] := if_neg (by have := hn k (by simp); simp only [among] at this; simp [this])
    obtain ⟨h2, h3⟩ := List.pairwise_cons.1 h
    rw [List.foldl_cons, h1, ih _ h3 (fun x hx => ?_), List.append_assoc, List.singleton_append]
    rw [among_append, hn x (by simp [hx]), Bool.false_or, among_false]
    simp only [List.mem_singleton, forall_eq]
    rw [peq_symm]; exact h2 x hx

/-- Assigning keys that are partly there: the old ones stay or are replaced. -/
theorem assign_keys [PartialGoEq K] (rep : Bool) (ks : List K) : ∀ l : List K, NoTwins l → NoTwins ks →
    (ks.foldl (assignKey rep) l).Perm (if rep then l.filter (fun k => !among ks k) ++ ks else l ++ ks.filter (fun k => !among l k)) := by
  induction ks with
  | nil =>
    intro l _ _
    have : l.filter (fun k => !among [] k) = l := List.filter_eq_self.2 fun k _ => rfl
    cases rep <;> simp [this]
  | cons k ks ih =>
    intro l hl h
    obtain ⟨h2, h3⟩ := List.pairwise_cons.1 h
    rw [List.foldl_cons]
    have hks : ∀ x ∈ ks, GoEq.eq x k = false := fun x hx => by rw [peq_symm]; exact h2 x hx
    by_cases hk : among l k = true
    · -- the key is there already
      obtain ⟨e, he, hke⟩ := List.any_eq_true.1 hk
      have h1 : assignKey rep l k = l.map (fun e => if rep && GoEq.eq k e then k else e) := if_pos hk
      cases rep with
      | false =>
        simp only [Bool.false_and, Bool.false_eq_true, if_false, List.map_id'] at h1
        rw [h1]
        refine (ih l hl h3).trans ?_
        simp [hk]
      | true =>
        obtain ⟨A, B, rfl⟩ := List.append_of_mem he
        have hp : (A ++ e :: B).Perm (e :: (A ++ B)) := List.perm_middle
        have hap := List.pairwise_cons.1 (hl.perm hp.symm)
        have hAB : ∀ x ∈ A ++ B, GoEq.eq k x = false := fun x hx => by rw [peq_congr hke]; exact hap.1 x hx
        have h4 : assignKey true (A ++ e :: B) k = A ++ k :: B := by
          rw [h1]
          have hA : ∀ x ∈ A, (if (true && GoEq.eq k x) = true then k else x) = x := fun x hx => by rw [hAB x (by simp [hx])]; rfl
          have hB : ∀ x ∈ B, (if (true && GoEq.eq k x) = true then k else x) = x := fun x hx => by rw [hAB x (by simp [hx])]; rfl
          rw [List.map_append, List.map_cons, List.map_congr_left hA, List.map_congr_left hB, hke]
          simp
        rw [h4]
        have hl' : NoTwins (A ++ k :: B) := by
          refine NoTwins.perm (l := k :: (A ++ B)) ?_ List.perm_middle
          exact List.pairwise_cons.2 ⟨hAB, hap.2⟩
        refine (ih _ hl' h3).trans ?_
        simp only [if_true]
        have e1 : among ks k = false := among_false.2 h2
        have e2 : among (k :: ks) e = true := by
          rw [← among_congr hke]
          have : GoEq.eq k k = true := PartialGoEq.trans _ _ _ hke (PartialGoEq.symm _ _ hke)
          simp [among, this]
        have e3 : ∀ x ∈ A ++ B, among (k :: ks) x = among ks x := fun x hx => by
          have := hAB x hx
          rw [peq_symm] at this
          simp [among, this]
        have hf : ∀ L : List K, (∀ x ∈ L, x ∈ A ++ B) → L.filter (fun x => !among (k :: ks) x) = L.filter (fun x => !among ks x) := fun L hL =>
          List.filter_congr fun x hx => by rw [e3 x (hL x hx)]
        rw [List.filter_append, List.filter_append, List.filter_cons, List.filter_cons, e1, e2, hf A (by simp +contextual), hf B (by simp +contextual)]
        simp only [Bool.not_false, if_true, Bool.not_true, Bool.false_eq_true, if_false, List.append_assoc, List.cons_append]
        exact List.Perm.append_left _ List.perm_middle.symm
    · have hk : among l k = false := by simpa using hk
      have h1 : assignKey rep l k = l ++ [k] := if_neg (by simp only [among] at hk; simp [hk])
      have hl' : NoTwins (l ++ [k]) := by
        refine NoTwins.perm (l := k :: l) ?_ (List.perm_append_singleton k l)
        exact List.pairwise_cons.2 ⟨among_false.1 hk, hl⟩
      rw [h1]
      refine (ih _ hl' h3).trans ?_
      cases rep with
      | false =>
        simp only [Bool.false_eq_true, if_false, List.filter_cons, hk, Bool.not_false, if_true]
        have : ks.filter (fun x => !among (l ++ [k]) x) = ks.filter (fun x => !among l x) := List.filter_congr fun x hx => by
          rw [among_append]; simp [among, hks x hx]
        rw [this, List.append_assoc, List.singleton_append]
      | true =>
        simp only [if_true]
        have e1 : among ks k = false := among_false.2 h2
        have : l.filter (fun x => !among (k :: ks) x) = l.filter (fun x => !among ks x) := List.filter_congr fun x hx => by
          have := among_false.1 hk x hx
          rw [peq_symm] at this
          simp [among, this]
        rw [this, List.filter_append]
        simp [e1]

/-- As many keys of the one are among the other as the other way round. -/
theorem among_count [PartialGoEq K] (A : List K) : ∀ B : List K, NoTwins A → NoTwins B →
    (A.filter (among B)).length = (B.filter (among A)).length := by
  induction A with
  | nil =>
    intro B _ _
    rw [show B.filter (among []) = [] from List.filter_eq_nil_iff.2 fun k _ => Bool.false_ne_true]
    rfl
  | cons a A ih =>
    intro B hA hB
    obtain ⟨h1, h2⟩ := List.pairwise_cons.1 hA
    by_cases ha : among B a = true
    · obtain ⟨b, hb, hab⟩ := List.any_eq_true.1 ha
      obtain ⟨B1, B2, rfl⟩ := List.append_of_mem hb
      have hp : (B1 ++ b :: B2).Perm (b :: (B1 ++ B2)) := List.perm_middle
      have hap := List.pairwise_cons.1 (hB.perm hp.symm)
      have ih := ih (B1 ++ B2) h2 hap.2
      have e1 : (A.filter (among (B1 ++ b :: B2))) = A.filter (among (B1 ++ B2)) := List.filter_congr fun x hx => by
        rw [among_perm hp]
        have h3 := h1 x hx
        rw [peq_congr hab, peq_symm] at h3
        simp [among, h3]
      have e2 : ((B1 ++ b :: B2).filter (among (a :: A))).length = ((b :: (B1 ++ B2)).filter (among (a :: A))).length := (hp.filter _).length_eq
      have e3 : among (a :: A) b = true := by simp [among, PartialGoEq.symm _ _ hab]
      have e4 : (B1 ++ B2).filter (among (a :: A)) = (B1 ++ B2).filter (among A) := List.filter_congr fun x hx => by
        have h3 := hap.1 x hx
        rw [← peq_congr hab, peq_symm] at h3
        simp [among, h3]
      rw [e2, List.filter_cons, List.filter_cons, ha, e3, if_pos rfl, if_pos rfl, e1, e4, List.length_cons, List.length_cons, ih]
    · have ha : among B a = false := by simpa using ha
      have e4 : B.filter (among (a :: A)) = B.filter (among A) := List.filter_congr fun x hx => by
        have h3 := among_false.1 ha x hx
        rw [peq_symm] at h3
        simp [among, h3]
      rw [List.filter_cons, ha, if_neg (by simp), e4, ih B h2 hB]

omit [GoEq K] in
theorem filter_length_not (l : List K) (p : K → Bool) : (l.filter p).length + (l.filter (fun k => !p k)).length = l.length := by
  induction l with
  | nil => rfl
  | cons a l ih => cases h : p a <;> simp [h] <;> omega

theorem MWorld.Proper.apart {w : MWorld K} (hw : w.Proper) (r : MRef) : NoTwins (w.keysOf r) := by
  cases r with
  | none => exact List.Pairwise.nil
  | some i => exact hw i

theorem inter_keys [PartialGoEq K] (rt : MapRt K) (hrt : rt.Fair) (w : MWorld K) (hw : w.Proper) (s o : MRef) (hs : s ≠ some w.next) (ho : o ≠ some w.next) :
    ∃ w', bsIntersection rt s o w = .ok (some w.next) w' ∧ (w'.maps w.next).Perm (if (w.keysOf s).length < (w.keysOf o).length
      then (w.keysOf s).filter (among (w.keysOf o)) else (w.keysOf o).filter (among (w.keysOf s))) := by
  have hks := fun a b l => MWorld.keysOf_new w w.next a b l s hs
  have hko := fun a b l => MWorld.keysOf_new w w.next a b l o ho
  have hfold : ∀ a b : MRef, ((rt.order w.loops (w.keysOf a)).filter (fun k => (w.keysOf b).any (fun e => GoEq.eq k e))).foldl (assignKey rt.replace) [] =
      (rt.order w.loops (w.keysOf a)).filter (among (w.keysOf b)) := fun a b =>
    assign_apart rt.replace _ [] (((hw.apart a).perm (hrt _ _)).filter _) (fun k _ => rfl)
  by_cases hlt : (w.keysOf s).length < (w.keysOf o).length
  · have hlt' : ((w.keysOf s).length : Int) < (w.keysOf o).length := by omega
    refine ⟨{ w.put w.next ((rt.order w.loops (w.keysOf s)).filter (among (w.keysOf o))) with next := w.next + 1, loops := w.loops + 1 }, ?_, ?_⟩
    · simp only [bsIntersection, GoM.bind_def, mapMake, orderSet, bsLen, mapLen, hks, hko, if_pos hlt', GoM.pure_apply,
        mapRange, interLoop_eq rt o _ ho, MWorld.put_maps, MWorld.put_loops, MWorld.put_new, hfold]
    · rw [if_pos hlt]
      simp only [MWorld.put_maps]
      exact (hrt _ _).filter _
  · have hlt' : ¬ ((w.keysOf s).length : Int) < (w.keysOf o).length := by omega
    refine ⟨{ w.put w.next ((rt.order w.loops (w.keysOf o)).filter (among (w.keysOf s))) with next := w.next + 1, loops := w.loops + 1 }, ?_, ?_⟩
    · simp only [bsIntersection, GoM.bind_def, mapMake, orderSet, bsLen, mapLen, hks, hko, if_neg hlt', GoM.pure_apply,
        mapRange, interLoop_eq rt s _ hs, MWorld.put_maps, MWorld.put_loops, MWorld.put_new, hfold]
    · rw [if_neg hlt]
      simp only [MWorld.put_maps]
      exact (hrt _ _).filter _

theorem diff_keys [PartialGoEq K] (rt : MapRt K) (hrt : rt.Fair) (w : MWorld K) (hw : w.Proper) (s o : MRef) (hs : s ≠ some w.next) (ho : o ≠ some w.next) :
    ∃ w', bsDifference rt s o w = .ok (some w.next) w' ∧ (w'.maps w.next).Perm ((w.keysOf s).filter (fun k => !among (w.keysOf o) k)) := by
  refine ⟨_, bsDiff_eq rt w s o hs ho, ?_⟩
  simp only [MWorld.put_maps]
  rw [assign_apart rt.replace _ [] (((hw.apart s).perm (hrt _ _)).filter _) (fun k _ => rfl), List.nil_append]
  exact (hrt _ _).filter _

theorem union_keys [PartialGoEq K] (rt : MapRt K) (hrt : rt.Fair) (w : MWorld K) (hw : w.Proper) (s o : MRef) (hs : s ≠ some w.next) (ho : o ≠ some w.next) :
    ∃ w', bsUnion rt s o w = .ok (some w.next) w' ∧ (w'.maps w.next).Perm (if rt.replace
      then (w.keysOf s).filter (fun k => !among (w.keysOf o) k) ++ w.keysOf o
      else w.keysOf s ++ (w.keysOf o).filter (fun k => !among (w.keysOf s) k)) := by
  refine ⟨_, bsUnion_eq rt w s o hs ho, ?_⟩
  simp only [MWorld.put_maps]
  have h1 := (hw.apart s).perm (hrt w.loops _)
  have h2 := (hw.apart o).perm (hrt (w.loops + 1) _)
  rw [List.foldl_append, assign_apart rt.replace _ [] h1 (fun k _ => rfl), List.nil_append]
  refine (assign_keys rt.replace _ _ h1 h2).trans ?_
  have e1 : ∀ k, among (rt.order w.loops (w.keysOf s)) k = among (w.keysOf s) k := among_perm (hrt _ _)
  have e2 : ∀ k, among (rt.order (w.loops + 1) (w.keysOf o)) k = among (w.keysOf o) k := among_perm (hrt _ _)
  simp only [e1, e2]
  split
  · exact ((hrt _ _).filter _).append (hrt _ _)
  · exact (hrt _ _).append ((hrt _ _).filter _)

theorem update_keys [PartialGoEq K] (rt : MapRt K) (hrt : rt.Fair) (w : MWorld K) (hw : w.Proper) (i : Nat) (o : MRef) :
    ∃ w', bsUpdate rt (some i) o w = .ok () w' ∧ (w'.maps i).Perm (if rt.replace
      then (w.maps i).filter (fun k => !among (w.keysOf o) k) ++ w.keysOf o
      else w.maps i ++ (w.keysOf o).filter (fun k => !among (w.maps i) k)) := by
  refine ⟨({ w with loops := w.loops + 1 } : MWorld K).put i ((rt.order w.loops (w.keysOf o)).foldl (assignKey rt.replace) (w.maps i)), ?_, ?_⟩
  · simp only [bsUpdate, GoM.bind_def, mapRange, setAll_eq]
  · simp only [MWorld.put_maps]
    refine (assign_keys rt.replace _ _ (hw i) ((hw.apart o).perm (hrt _ _))).trans ?_
    have e2 : ∀ k, among (rt.order w.loops (w.keysOf o)) k = among (w.keysOf o) k := among_perm (hrt _ _)
    simp only [e2]
    split
    · exact List.Perm.append_left _ (hrt _ _)
    · exact List.Perm.append_left _ ((hrt _ _).filter _)

/-! ## Costs -/

theorem setAllC_eq (rt : MapRt K) (s : MRef) (i : Nat) (hs : s = some i) (ks : List K) : ∀ (w : MWorld K) (c : MCost),
    setAllC rt s ks (w, c) = .ok () (w.put i (ks.foldl (assignKey rt.replace) (w.maps i)), ⟨c.lookups, c.assigns + ks.length⟩) := by
  subst hs
  induction ks with
  | nil => intro w c; simp [setAllC, MWorld.put_self]
  | cons k ks ih =>
    intro w c
    simp [setAllC, GoM.bind_def, costing, mapSet, ih]
    omega

theorem interLoopC_eq (rt : MapRt K) (large : MRef) (n : Nat) (hn : large ≠ some n) (ks : List K) : ∀ (w : MWorld K) (c : MCost),
    interLoopC rt large (some n) ks (w, c) =
      .ok () (w.put n ((ks.filter (among (w.keysOf large))).foldl (assignKey rt.replace) (w.maps n)),
        ⟨c.lookups + ks.length, c.assigns + (ks.filter (among (w.keysOf large))).length⟩) := by
  induction ks with
  | nil => intro w c; simp [interLoopC, MWorld.put_self]
  | cons k ks ih =>
    intro w c
    simp only [interLoopC, GoM.bind_def, bsHas, mapHas, costing]
    rcases Bool.eq_false_or_eq_true (among (w.keysOf large) k) with h | h
    · have h' : (w.keysOf large).any (fun e => GoEq.eq k e) = true := h
      rw [h', if_pos rfl]
      simp only [GoM.bind_def, costing, bsInsert_eq, ih, MWorld.keysOf_put _ _ _ _ hn, MWorld.put_maps, MWorld.put_put, List.filter_cons, h, if_true,
        List.foldl_cons, List.length_cons]
      congr 3 <;> omega
    · have h' : (w.keysOf large).any (fun e => GoEq.eq k e) = false := h
      rw [h', if_neg (by simp)]
      simp only [ih, List.filter_cons, h, Bool.false_eq_true, if_false, List.length_cons]
      congr 3; omega

theorem diffLoopC_eq (rt : MapRt K) (other : MRef) (n : Nat) (hn : other ≠ some n) (ks : List K) : ∀ (w : MWorld K) (c : MCost),
    diffLoopC rt other (some n) ks (w, c) =
      .ok () (w.put n ((ks.filter (fun k => !among (w.keysOf other) k)).foldl (assignKey rt.replace) (w.maps n)),
        ⟨c.lookups + ks.length, c.assigns + (ks.filter (fun k => !among (w.keysOf other) k)).length⟩) := by
  induction ks with
  | nil => intro w c; simp [diffLoopC, MWorld.put_self]
  | cons k ks ih =>
    intro w c
    simp only [diffLoopC, GoM.bind_def, bsHas, mapHas, costing]
    rcases Bool.eq_false_or_eq_true (among (w.keysOf other) k) with h | h
    · have h' : (w.keysOf other).any (fun e => GoEq.eq k e) = true := h
      rw [h', if_neg (by simp)]
      simp only [ih, List.filter_cons, h, Bool.not_true, Bool.false_eq_true, if_false, List.length_cons]
      congr 3; omega
    · have h' : (w.keysOf other).any (fun e => GoEq.eq k e) = false := h
      rw [h', if_pos (by simp)]
      simp only [GoM.bind_def, costing, bsInsert_eq, ih, MWorld.keysOf_put _ _ _ _ hn, MWorld.put_maps, MWorld.put_put, List.filter_cons, h,
        Bool.not_false, if_true, List.foldl_cons, List.length_cons]
      congr 3 <;> omega

/-- The elements up to and including the first with `p`. -/
def upTo (p : K → Bool) (l : List K) : Nat := min l.length ((l.takeWhile (fun k => !p k)).length + 1)

omit [GoEq K] in
theorem upTo_cons (p : K → Bool) (k : K) (l : List K) : upTo p (k :: l) = 1 + if p k then 0 else upTo p l := by
  unfold upTo
  cases h : p k <;> simp [h] <;> omega

omit [GoEq K] in
theorem upTo_all {p : K → Bool} {l : List K} (h : ∀ k ∈ l, p k = false) : upTo p l = l.length := by
  induction l with
  | nil => rfl
  | cons k l ih =>
    rw [upTo_cons, h k (by simp), ih (fun x hx => h x (by simp [hx]))]
    simp; omega

theorem disjointLoopC_eq (large : MRef) (ks : List K) : ∀ (w : MWorld K) (c : MCost),
    disjointLoopC large ks (w, c) = .ok (ks.all (fun k => !among (w.keysOf large) k)) (w, ⟨c.lookups + upTo (among (w.keysOf large)) ks, c.assigns⟩) := by
  induction ks with
  | nil => intro w c; rfl
  | cons k ks ih =>
    intro w c
    simp only [disjointLoopC, GoM.bind_def, bsHas, mapHas, costing]
    rcases Bool.eq_false_or_eq_true (among (w.keysOf large) k) with h | h
    · have h' : (w.keysOf large).any (fun e => GoEq.eq k e) = true := h
      rw [h', if_pos rfl, upTo_cons, h]
      simp [h, GoM.pure_apply]
    · have h' : (w.keysOf large).any (fun e => GoEq.eq k e) = false := h
      rw [h', if_neg (by simp), upTo_cons, h]
      simp [h, ih]; omega

theorem subsetLoopC_eq (other : MRef) (ks : List K) : ∀ (w : MWorld K) (c : MCost),
    subsetLoopC other ks (w, c) = .ok (ks.all (among (w.keysOf other))) (w, ⟨c.lookups + upTo (fun k => !among (w.keysOf other) k) ks, c.assigns⟩) := by
  induction ks with
  | nil => intro w c; rfl
  | cons k ks ih =>
    intro w c
    simp only [subsetLoopC, GoM.bind_def, bsHas, mapHas, costing]
    rcases Bool.eq_false_or_eq_true (among (w.keysOf other) k) with h | h
    · have h' : (w.keysOf other).any (fun e => GoEq.eq k e) = true := h
      rw [h', if_neg (by simp), upTo_cons, h]
      simp [h, ih]; omega
    · have h' : (w.keysOf other).any (fun e => GoEq.eq k e) = false := h
      rw [h', if_pos (by simp), upTo_cons, h]
      simp [h, GoM.pure_apply]

end Stl4go
