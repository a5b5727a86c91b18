import Verif.Spec.BuiltinSet
import Verif.Spec.ForEach
/-! # Lemmas about `BuiltinSet` -/
namespace Stl4go
variable {K σ : Type} [GoEq K]

theorem geq_symm [LawfulGoEq K] (a b : K) : GoEq.eq a b = GoEq.eq b a := by
  rcases Bool.eq_false_or_eq_true (GoEq.eq a b) with h | h
  · rw [h, LawfulGoEq.symm _ _ h]
  · rcases Bool.eq_false_or_eq_true (GoEq.eq b a) with h2 | h2
    · rw [LawfulGoEq.symm _ _ h2] at h; cases h
    · rw [h, h2]

theorem geq_congr [LawfulGoEq K] {a b : K} (h : GoEq.eq a b = true) (c : K) : GoEq.eq a c = GoEq.eq b c := by
  rcases Bool.eq_false_or_eq_true (GoEq.eq b c) with h2 | h2
  · rw [h2, LawfulGoEq.trans _ _ _ h h2]
  · rcases Bool.eq_false_or_eq_true (GoEq.eq a c) with h3 | h3
    · rw [LawfulGoEq.trans _ _ _ (LawfulGoEq.symm _ _ h) h3] at h2; cases h2
    · rw [h2, h3]

theorem lists_iff (S : K → Bool) (l : List K) : Lists S l ↔ l.Pairwise (fun x y => GoEq.eq x y = false) ∧ ∀ k, S k = l.any (fun e => GoEq.eq k e) := by
  unfold Lists
  refine and_congr Iff.rfl (forall_congr' fun k => ?_)
  constructor
  · intro h
    rw [Bool.eq_iff_iff, h, List.any_eq_true]
  · intro h
    rw [h, List.any_eq_true]

theorem Lists.any {S : K → Bool} {l : List K} (h : Lists S l) (k : K) : l.any (fun e => GoEq.eq k e) = S k := (((lists_iff _ _).1 h).2 k).symm

theorem Lists.nil : Lists (fun _ : K => false) [] := by simp [Lists]

theorem Lists.perm [LawfulGoEq K] {S : K → Bool} {l l' : List K} (h : Lists S l) (hp : l'.Perm l) : Lists S l' := by
  refine ⟨(hp.pairwise_iff (fun {x y} hxy => by rw [geq_symm]; exact hxy)).2 h.1, fun k => ?_⟩
  rw [h.2 k]
  exact ⟨fun ⟨e, he, hk⟩ => ⟨e, hp.mem_iff.2 he, hk⟩, fun ⟨e, he, hk⟩ => ⟨e, hp.mem_iff.1 he, hk⟩⟩

/-- Membership does not tell equal keys apart. -/
theorem Lists.congr [LawfulGoEq K] {S : K → Bool} {l : List K} (h : Lists S l) {a b : K} (hab : GoEq.eq a b = true) : S a = S b := by
  rw [← h.any, ← h.any]
  congr 1
  funext e
  exact geq_congr hab e

/-! ## Assignment and deletion -/

theorem Lists.assign [LawfulGoEq K] {S : K → Bool} {l : List K} (h : Lists S l) (rep : Bool) (k : K) :
    Lists (fun x => S x || GoEq.eq x k) (assignKey rep l k) ∧
      (assignKey rep l k).length = l.length + (if S k then 0 else 1) := by
  have ha := h.any k
  obtain ⟨h1, h2⟩ := (lists_iff _ _).1 h
  unfold assignKey
  rcases Bool.eq_false_or_eq_true (S k) with hk | hk
  · rw [if_pos (by rw [ha, hk])]
    refine ⟨(lists_iff _ _).2 ⟨?_, ?_⟩, by simp [hk]⟩
    · rw [List.pairwise_map]
      refine h1.imp ?_
      intro a b hab
      by_cases hr : rep = true
      · simp only [hr, Bool.true_and]
        split
        · rename_i e1
          split
          · rename_i e2
            have := LawfulGoEq.trans _ _ _ (LawfulGoEq.symm _ _ e1) e2
            rw [this] at hab; cases hab
          · rename_i e2; simpa using e2
        · rename_i e1
          split
          · rw [geq_symm]; simpa using e1
          · exact hab
      · simp only [Bool.not_eq_true] at hr
        simp [hr, hab]
    · intro x
      have e1 : (l.map (fun e => if rep && GoEq.eq k e then k else e)).any (fun e => GoEq.eq x e) = l.any (fun e => GoEq.eq x e) := by
        rw [List.any_map]
        congr 1
        funext e
        simp only [Function.comp_apply]
        split
        · rename_i he
          simp only [Bool.and_eq_true] at he
          rw [geq_symm x k, geq_symm x e]
          exact geq_congr he.2 x
        · rfl
      rw [e1, ← h2 x]
      rcases Bool.eq_false_or_eq_true (GoEq.eq x k) with hx | hx
      · rw [h.congr hx, hk]; simp
      · simp [hx]
  · rw [if_neg (by rw [ha, hk]; simp)]
    refine ⟨(lists_iff _ _).2 ⟨?_, ?_⟩, by simp [hk]⟩
    · rw [List.pairwise_append]
      refine ⟨h1, by simp, ?_⟩
      intro a ha' b hb
      simp only [List.mem_singleton] at hb
      subst hb
      rw [hk] at ha
      have := List.any_eq_false.1 ha a ha'
      rw [geq_symm]
      simpa using this
    · intro x
      rw [List.any_append, ← h2 x]
      simp

theorem Lists.delete [LawfulGoEq K] {S : K → Bool} {l : List K} (h : Lists S l) (k : K) :
    Lists (fun x => S x && !GoEq.eq x k) (l.filter (fun e => !GoEq.eq k e)) := by
  obtain ⟨h1, h2⟩ := h
  refine ⟨h1.sublist List.filter_sublist, fun x => ?_⟩
  simp only [Bool.and_eq_true, Bool.not_eq_true', h2 x]
  constructor
  · rintro ⟨⟨e, he, hx⟩, hk⟩
    refine ⟨e, List.mem_filter.2 ⟨he, ?_⟩, hx⟩
    have := geq_congr hx k
    rw [hk] at this
    rw [geq_symm, ← this]; rfl
  · rintro ⟨e, he, hx⟩
    obtain ⟨he, hk⟩ := List.mem_filter.1 he
    refine ⟨⟨e, he, hx⟩, ?_⟩
    rw [geq_congr hx k, geq_symm]
    simpa using hk

theorem Lists.assignAll [LawfulGoEq K] (rep : Bool) (ks : List K) : ∀ {S : K → Bool} {l : List K}, Lists S l →
    Lists (fun x => S x || ks.any (fun k => GoEq.eq x k)) (ks.foldl (assignKey rep) l) := by
  induction ks with
  | nil => intro S l h; simpa using h
  | cons k ks ih =>
    intro S l h
    have := ih (h.assign rep k).1
    simpa [Bool.or_assoc] using this

theorem Lists.deleteAll [LawfulGoEq K] (ks : List K) : ∀ {S : K → Bool} {l : List K}, Lists S l →
    Lists (fun x => S x && !ks.any (fun k => GoEq.eq x k)) (ks.foldl (fun l k => l.filter (fun e => !GoEq.eq k e)) l) := by
  induction ks with
  | nil => intro S l h; simpa using h
  | cons k ks ih =>
    intro S l h
    have := ih (h.delete k)
    simpa [Bool.and_assoc] using this

/-- Deleting a member shortens the list by one. -/
theorem Lists.delete_length [LawfulGoEq K] {S : K → Bool} {l : List K} (h : Lists S l) (k : K) :
    (l.filter (fun e => !GoEq.eq k e)).length + (if S k then 1 else 0) = l.length := by
  have key : ∀ l : List K, l.Pairwise (fun x y => GoEq.eq x y = false) →
      (l.filter (fun e => !GoEq.eq k e)).length + (if l.any (fun e => GoEq.eq k e) then 1 else 0) = l.length := by
    intro l
    induction l with
    | nil => intro _; simp
    | cons e l ih =>
      intro hp
      obtain ⟨h1, h2⟩ := List.pairwise_cons.1 hp
      have := ih h2
      rcases Bool.eq_false_or_eq_true (GoEq.eq k e) with he | he
      · have hn : l.any (fun e => GoEq.eq k e) = false := by
          rw [List.any_eq_false]
          intro x hx
          rw [geq_congr he x, h1 x hx]
          simp
        rw [hn] at this
        simp only [Bool.false_eq_true, if_false, Nat.add_zero] at this
        simp [he, this]
      · simp only [List.filter_cons, he, Bool.not_false, if_true, List.length_cons, List.any_cons, Bool.false_or]
        omega
  have := key l h.1
  rw [h.any] at this
  exact this

/-- Two lists of the same set are equally long. -/
theorem Lists.length_eq [LawfulGoEq K] : ∀ {l l' : List K} {S : K → Bool}, Lists S l → Lists S l' → l.length = l'.length := by
  intro l
  induction l with
  | nil =>
    intro l' S h h'
    cases l' with
    | nil => rfl
    | cons e l' =>
      have h1 := h'.any e
      have h2 := h.any e
      simp only [List.any_cons, LawfulGoEq.refl, Bool.true_or] at h1
      rw [← h1] at h2
      simp at h2
  | cons e l ih =>
    intro l' S h h'
    have hS : S e = true := by rw [← h.any e]; simp [LawfulGoEq.refl]
    have h1 := h.delete e
    have h2 := h'.delete e
    have he : (e :: l).filter (fun x => !GoEq.eq e x) = l := by
      have hp := (List.pairwise_cons.1 h.1).1
      rw [List.filter_cons]
      simp only [LawfulGoEq.refl, Bool.not_true, Bool.false_eq_true, if_false]
      rw [List.filter_eq_self]
      intro x hx
      simp [hp x hx]
    rw [he] at h1
    have h3 := ih h1 h2
    have h4 := h'.delete_length e
    rw [hS] at h4
    simp only [if_true] at h4
    simp only [List.length_cons]
    omega

theorem HasSize.unique [LawfulGoEq K] {S : K → Bool} {n n' : Int} (h : HasSize S n) (h' : HasSize S n') : n = n' := by
  obtain ⟨l, hl, rfl⟩ := h
  obtain ⟨l', hl', rfl⟩ := h'
  rw [hl.length_eq hl']

theorem Lists.empty_iff [LawfulGoEq K] {S : K → Bool} {l : List K} (h : Lists S l) : l.length = 0 ↔ ∀ k, S k = false := by
  constructor
  · intro hl k
    rw [List.length_eq_zero_iff] at hl
    subst hl
    rw [← h.any k]; rfl
  · intro hk
    cases l with
    | nil => rfl
    | cons e l =>
      have := h.any e
      rw [hk e] at this
      simp [LawfulGoEq.refl] at this

/-- A set inside another one is not larger. -/
theorem Lists.length_le [LawfulGoEq K] : ∀ {l l' : List K} {S S' : K → Bool}, Lists S l → Lists S' l' → (∀ k, S k = true → S' k = true) →
    l.length ≤ l'.length := by
  intro l l' S S' h h' hs
  -- keep the members of `S'` that are in `S`
  have h2 : Lists S (l'.filter S) := by
    refine ⟨h'.1.sublist List.filter_sublist, fun k => ?_⟩
    constructor
    · intro hk
      obtain ⟨e, he, hke⟩ := (h'.2 k).1 (hs k hk)
      exact ⟨e, List.mem_filter.2 ⟨he, by rw [← h.congr hke]; exact hk⟩, hke⟩
    · rintro ⟨e, he, hke⟩
      rw [h.congr hke]
      exact (List.mem_filter.1 he).2
  rw [h.length_eq h2]
  exact List.length_filter_le _ _

/-! ## Worlds -/

omit [GoEq K] in
@[simp] theorem MWorld.put_maps (w : MWorld K) (i : Nat) (l : List K) : (w.put i l).maps i = l := by simp [MWorld.put]
omit [GoEq K] in
@[simp] theorem MWorld.put_put (w : MWorld K) (i : Nat) (l l' : List K) : (w.put i l).put i l' = w.put i l' := by
  unfold MWorld.put
  congr 1
  funext j
  simp only
  split <;> rfl
omit [GoEq K] in
theorem MWorld.put_self (w : MWorld K) (i : Nat) : w.put i (w.maps i) = w := by
  cases w
  unfold MWorld.put
  congr 1
  funext j
  simp only
  split
  · rename_i h; rw [h]
  · rfl
omit [GoEq K] in
theorem MWorld.keysOf_put (w : MWorld K) (i : Nat) (l : List K) (r : MRef) (h : r ≠ some i) : (w.put i l).keysOf r = w.keysOf r := by
  cases r with
  | none => rfl
  | some j =>
    have : j ≠ i := fun e => h (by rw [e])
    simp [MWorld.keysOf, MWorld.put, this]

theorem setAll_eq (rt : MapRt K) (i : Nat) (ks : List K) : ∀ w : MWorld K,
    setAll rt (some i) ks w = .ok () (w.put i (ks.foldl (assignKey rt.replace) (w.maps i))) := by
  induction ks with
  | nil => intro w; simp [setAll, MWorld.put_self]
  | cons k ks ih =>
    intro w
    simp [setAll, GoM.bind_def, mapSet, ih]

theorem deleteAll_eq (i : Nat) (ks : List K) : ∀ w : MWorld K,
    deleteAll (some i) ks w = .ok () (w.put i (ks.foldl (fun l k => l.filter (fun e => !GoEq.eq k e)) (w.maps i))) := by
  induction ks with
  | nil => intro w; simp [deleteAll, MWorld.put_self]
  | cons k ks ih =>
    intro w
    simp [deleteAll, GoM.bind_def, mapDelete, ih]

theorem deleteAll_nil (ks : List K) : ∀ w : MWorld K, deleteAll none ks w = .ok () w := by
  induction ks with
  | nil => intro w; rfl
  | cons k ks ih => intro w; simp [deleteAll, GoM.bind_def, mapDelete, ih]

theorem bsInsert_eq (rt : MapRt K) (i : Nat) (k : K) (w : MWorld K) :
    bsInsert rt (some i) k w = .ok (decide ((assignKey rt.replace (w.maps i) k).length > (w.maps i).length)) (w.put i (assignKey rt.replace (w.maps i) k)) := by
  simp [bsInsert, GoM.bind_def, mapLen, mapSet, MWorld.keysOf]

theorem interLoop_eq (rt : MapRt K) (large : MRef) (n : Nat) (hn : large ≠ some n) (ks : List K) : ∀ w : MWorld K,
    interLoop rt large (some n) ks w = .ok () (w.put n ((ks.filter (fun k => (w.keysOf large).any (fun e => GoEq.eq k e))).foldl (assignKey rt.replace) (w.maps n))) := by
  induction ks with
  | nil => intro w; simp [interLoop, MWorld.put_self]
  | cons k ks ih =>
    intro w
    simp only [interLoop, GoM.bind_def, bsHas, mapHas]
    rcases Bool.eq_false_or_eq_true ((w.keysOf large).any (fun e => GoEq.eq k e)) with h | h
    · rw [h]
      simp only [if_true, GoM.bind_def, bsInsert_eq, ih, MWorld.put_put, MWorld.put_maps, MWorld.keysOf_put _ _ _ _ hn]
      rw [List.filter_cons, if_pos h, List.foldl_cons]
    · rw [h]
      simp only [Bool.false_eq_true, if_false, ih]
      rw [List.filter_cons, if_neg (by rw [h]; simp)]

theorem diffLoop_eq (rt : MapRt K) (other : MRef) (n : Nat) (hn : other ≠ some n) (ks : List K) : ∀ w : MWorld K,
    diffLoop rt other (some n) ks w = .ok () (w.put n ((ks.filter (fun k => !(w.keysOf other).any (fun e => GoEq.eq k e))).foldl (assignKey rt.replace) (w.maps n))) := by
  induction ks with
  | nil => intro w; simp [diffLoop, MWorld.put_self]
  | cons k ks ih =>
    intro w
    simp only [diffLoop, GoM.bind_def, bsHas, mapHas]
    rcases Bool.eq_false_or_eq_true ((w.keysOf other).any (fun e => GoEq.eq k e)) with h | h
    · rw [h]
      simp only [Bool.not_true, Bool.false_eq_true, if_false, ih]
      rw [List.filter_cons, if_neg (by rw [h]; simp)]
    · rw [h]
      simp only [Bool.not_false, if_true, GoM.bind_def, bsInsert_eq, ih, MWorld.put_put, MWorld.put_maps, MWorld.keysOf_put _ _ _ _ hn]
      rw [List.filter_cons, if_pos (by rw [h]; rfl), List.foldl_cons]

theorem disjointLoop_eq (large : MRef) (w : MWorld K) (ks : List K) :
    disjointLoop large ks w = .ok (ks.all (fun k => !(w.keysOf large).any (fun e => GoEq.eq k e))) w := by
  induction ks with
  | nil => rfl
  | cons k ks ih =>
    simp only [disjointLoop, GoM.bind_def, bsHas, mapHas]
    rcases Bool.eq_false_or_eq_true ((w.keysOf large).any (fun e => GoEq.eq k e)) with h | h
    · rw [h, if_pos rfl, List.all_cons, h]; rfl
    · rw [h, if_neg (by simp), ih, List.all_cons, h]; rfl

theorem subsetLoop_eq (other : MRef) (w : MWorld K) (ks : List K) :
    subsetLoop other ks w = .ok (ks.all (fun k => (w.keysOf other).any (fun e => GoEq.eq k e))) w := by
  induction ks with
  | nil => rfl
  | cons k ks ih =>
    simp only [subsetLoop, GoM.bind_def, bsHas, mapHas]
    rcases Bool.eq_false_or_eq_true ((w.keysOf other).any (fun e => GoEq.eq k e)) with h | h
    · rw [h, if_neg (by simp), ih, List.all_cons, h]; rfl
    · rw [h, if_pos (by simp), List.all_cons, h]; rfl

omit [GoEq K] in
theorem keysLoop_eq (ks : List K) : ∀ keys : List K, keysLoop ks keys = keys ++ ks := by
  induction ks with
  | nil => intro keys; simp [keysLoop]
  | cons k ks ih => intro keys; simp [keysLoop, ih]

/-! ## The invariant -/

/-- The maps list the sets. -/
def BRel (w : MWorld K) (st : BState K) : Prop := w.next = st.next ∧ ∀ i, Lists (st.mem i) (w.maps i)

theorem BRel.of {w : MWorld K} {st : BState K} (h : BRel w st) (r : MRef) : Lists (st.of r) (w.keysOf r) := by
  cases r with
  | none => exact Lists.nil
  | some i => exact h.2 i

theorem BRel.put {w : MWorld K} {st : BState K} (h : BRel w st) (i : Nat) {S : K → Bool} {l : List K} (hl : Lists S l) :
    BRel (w.put i l) (st.change (some i) S) := by
  refine ⟨h.1, fun j => ?_⟩
  simp only [MWorld.put, BState.change]
  split
  · exact hl
  · exact h.2 j

theorem BRel.loops {w : MWorld K} {st : BState K} (h : BRel w st) (n : Nat) : BRel { w with loops := n } st := h

theorem BRel.new {w : MWorld K} {st : BState K} (h : BRel w st) {n : Nat} {S : K → Bool} {l : List K} (hl : Lists S l) :
    BRel { w.put w.next l with next := w.next + 1, loops := n } (st.new S) := by
  refine ⟨by simp [BState.new, h.1], fun j => ?_⟩
  simp only [MWorld.put, BState.new, h.1]
  split
  · exact hl
  · exact h.2 j

theorem RefOk.ne {r : MRef} {n : Nat} (h : RefOk n r) : r ≠ some n := by
  cases r with
  | none => simp
  | some i =>
    simp only [RefOk] at h
    simp only [ne_eq, Option.some.injEq]
    omega

/-- Elements of the list that are members of another set. -/
theorem Lists.filterAny {S : K → Bool} {l : List K} (h : Lists S l) : ∀ ks : List K,
    ks.filter (fun k => l.any (fun e => GoEq.eq k e)) = ks.filter S := by
  intro ks
  congr 1
  funext k
  exact h.any k

theorem Lists.any_filter [LawfulGoEq K] {S S' : K → Bool} {l : List K} (h : Lists S l)
    (hc : ∀ a b, GoEq.eq a b = true → S' a = S' b) (x : K) : (l.filter S').any (fun e => GoEq.eq x e) = (S x && S' x) := by
  rw [Bool.eq_iff_iff, List.any_eq_true, Bool.and_eq_true, h.2 x]
  constructor
  · rintro ⟨e, he, hx⟩
    obtain ⟨he, hs⟩ := List.mem_filter.1 he
    exact ⟨⟨e, he, hx⟩, by rw [hc _ _ hx]; exact hs⟩
  · rintro ⟨⟨e, he, hx⟩, hs⟩
    exact ⟨e, List.mem_filter.2 ⟨he, by rw [← hc _ _ hx]; exact hs⟩, hx⟩

/-- A new set filled with some keys. -/
theorem Lists.fill [LawfulGoEq K] (rep : Bool) (ks : List K) {S : K → Bool} (h : ∀ x, ks.any (fun k => GoEq.eq x k) = S x) :
    Lists S (ks.foldl (assignKey rep) []) := by
  have := Lists.assignAll rep ks (Lists.nil (K := K))
  simpa [h] using this

omit [GoEq K] in
theorem MWorld.put_loops (w : MWorld K) (i : Nat) (l : List K) : (w.put i l).loops = w.loops := rfl
omit [GoEq K] in
theorem MWorld.put_new (w : MWorld K) (i a b : Nat) (l l' : List K) :
    ({ maps := (w.put i l).maps, next := a, loops := b } : MWorld K).put i l' = { maps := (w.put i l').maps, next := a, loops := b } := by
  unfold MWorld.put
  congr 1
  funext j
  simp only
  split <;> rfl
omit [GoEq K] in
theorem MWorld.keysOf_new (w : MWorld K) (i a b : Nat) (l : List K) (r : MRef) (h : r ≠ some i) :
    MWorld.keysOf { maps := (w.put i l).maps, next := a, loops := b } r = w.keysOf r := MWorld.keysOf_put w _ _ r h

theorem bsInter_eq (rt : MapRt K) (w : MWorld K) (s o : MRef) (hs : s ≠ some w.next) (ho : o ≠ some w.next) :
    ∃ small large, ((small = s ∧ large = o) ∨ (small = o ∧ large = s)) ∧
      bsIntersection rt s o w = .ok (some w.next) { w.put w.next (((rt.order w.loops (w.keysOf small)).filter
        (fun k => (w.keysOf large).any (fun e => GoEq.eq k e))).foldl (assignKey rt.replace) []) with next := w.next + 1, loops := w.loops + 1 } := by
  have hks := fun a b l => MWorld.keysOf_new w w.next a b l s hs
  have hko := fun a b l => MWorld.keysOf_new w w.next a b l o ho
  by_cases hlt : ((w.keysOf s).length : Int) < (w.keysOf o).length
  · refine ⟨s, o, Or.inl ⟨rfl, rfl⟩, ?_⟩
    simp only [bsIntersection, GoM.bind_def, mapMake, orderSet, bsLen, mapLen, hks, hko, if_pos hlt, GoM.pure_apply,
      mapRange, interLoop_eq rt o _ ho, MWorld.put_maps, MWorld.put_loops, MWorld.put_new]
  · refine ⟨o, s, Or.inr ⟨rfl, rfl⟩, ?_⟩
    simp only [bsIntersection, GoM.bind_def, mapMake, orderSet, bsLen, mapLen, hks, hko, if_neg hlt, GoM.pure_apply,
      mapRange, interLoop_eq rt s _ hs, MWorld.put_maps, MWorld.put_loops, MWorld.put_new]

theorem bsDiff_eq (rt : MapRt K) (w : MWorld K) (s o : MRef) (hs : s ≠ some w.next) (ho : o ≠ some w.next) :
    bsDifference rt s o w = .ok (some w.next) { w.put w.next (((rt.order w.loops (w.keysOf s)).filter
        (fun k => !(w.keysOf o).any (fun e => GoEq.eq k e))).foldl (assignKey rt.replace) []) with next := w.next + 1, loops := w.loops + 1 } := by
  have hks := fun a b l => MWorld.keysOf_new w w.next a b l s hs
  have hko := fun a b l => MWorld.keysOf_new w w.next a b l o ho
  simp only [bsDifference, GoM.bind_def, mapMake, hks, hko, GoM.pure_apply,
      mapRange, diffLoop_eq rt o _ ho, MWorld.put_maps, MWorld.put_loops, MWorld.put_new]

theorem bsUnion_eq (rt : MapRt K) (w : MWorld K) (s o : MRef) (hs : s ≠ some w.next) (ho : o ≠ some w.next) :
    bsUnion rt s o w = .ok (some w.next) { w.put w.next (((rt.order w.loops (w.keysOf s)) ++ (rt.order (w.loops + 1) (w.keysOf o))).foldl
        (assignKey rt.replace) []) with next := w.next + 1, loops := w.loops + 2 } := by
  have hks := fun a b l => MWorld.keysOf_new w w.next a b l s hs
  have hko := fun a b l => MWorld.keysOf_new w w.next a b l o ho
  simp only [bsUnion, bsUpdate, GoM.bind_def, mapMake, hks, hko, GoM.pure_apply,
      mapRange, setAll_eq, MWorld.put_maps, MWorld.put_loops, MWorld.put_new, List.foldl_append]

theorem bsSetOf_eq (rt : MapRt K) (w : MWorld K) (ks : List K) :
    bsSetOf rt ks w = .ok (some w.next) { w.put w.next (ks.foldl (assignKey rt.replace) []) with next := w.next + 1, loops := w.loops } := by
  simp only [bsSetOf, bsInsertN, GoM.bind_def, mapMake, mapLen, GoM.pure_apply,
      setAll_eq, MWorld.put_maps, MWorld.put_loops, MWorld.put_new]

theorem bsDisjoint_eq (rt : MapRt K) (w : MWorld K) (s o : MRef) :
    ∃ small large, ((small = s ∧ large = o) ∨ (small = o ∧ large = s)) ∧
      bsIsDisjointOf rt s o w = .ok ((rt.order w.loops (w.keysOf small)).all (fun k => !(w.keysOf large).any (fun e => GoEq.eq k e))) { w with loops := w.loops + 1 } := by
  have hl : ∀ r n, MWorld.keysOf { w with loops := n } r = w.keysOf r := by intro r n; cases r <;> rfl
  by_cases hlt : ((w.keysOf s).length : Int) < (w.keysOf o).length
  · refine ⟨s, o, Or.inl ⟨rfl, rfl⟩, ?_⟩
    simp only [bsIsDisjointOf, GoM.bind_def, orderSet, bsLen, mapLen, if_pos hlt, GoM.pure_apply, mapRange, disjointLoop_eq, hl]
  · refine ⟨o, s, Or.inr ⟨rfl, rfl⟩, ?_⟩
    simp only [bsIsDisjointOf, GoM.bind_def, orderSet, bsLen, mapLen, if_neg hlt, GoM.pure_apply, mapRange, disjointLoop_eq, hl]

theorem bsSubset_eq (rt : MapRt K) (w : MWorld K) (s o : MRef) :
    ∃ n, bsIsSubsetOf rt s o w = .ok (!decide ((w.keysOf s).length > (w.keysOf o).length) &&
      (rt.order w.loops (w.keysOf s)).all (fun k => (w.keysOf o).any (fun e => GoEq.eq k e))) { w with loops := n } := by
  have hl : ∀ r n, MWorld.keysOf { w with loops := n } r = w.keysOf r := by intro r n; cases r <;> rfl
  by_cases hlt : ((w.keysOf s).length : Int) > (w.keysOf o).length
  · refine ⟨w.loops, ?_⟩
    have h2 : (w.keysOf s).length > (w.keysOf o).length := by omega
    simp only [bsIsSubsetOf, GoM.bind_def, bsLen, mapLen, if_pos hlt, GoM.pure_apply, decide_eq_true h2, Bool.not_true, Bool.false_and]
  · refine ⟨w.loops + 1, ?_⟩
    have h2 : ¬ (w.keysOf s).length > (w.keysOf o).length := by omega
    simp only [bsIsSubsetOf, GoM.bind_def, bsLen, mapLen, if_neg hlt, mapRange, subsetLoop_eq, hl, decide_eq_false h2, Bool.not_false, Bool.true_and]

/-! ## One operation -/

theorem all_lists [LawfulGoEq K] {S : K → Bool} {l : List K} (h : Lists S l) (P : K → Bool) (hc : ∀ a b, GoEq.eq a b = true → P a = P b) :
    l.all P = true ↔ ∀ k, S k = true → P k = true := by
  rw [List.all_eq_true]
  constructor
  · intro ha k hk
    obtain ⟨e, he, hke⟩ := (h.2 k).1 hk
    rw [hc _ _ hke]
    exact ha e he
  · intro ha e he
    exact ha e ((h.2 e).2 ⟨e, he, LawfulGoEq.refl e⟩)

theorem BOp.call_ok [LawfulGoEq K] (rt : MapRt K) (hrt : rt.Fair) (op : BOp K) (w : MWorld K) (st : BState K) (h : BRel w st)
    (hv : op.Valid st.next) : st.Ok op (op.call rt w).1 ∧ BRel (op.call rt w).2 (st.step op) := by
  have hn := h.1
  cases op with
  | setOf ks =>
    simp only [BOp.call, BOp.exec, GoM.bind_def, bsSetOf_eq, GoM.pure_apply, BState.Ok, BState.step, hn, true_and]
    rw [← hn]
    exact h.new (Lists.fill _ _ (fun x => rfl))
  | isEmpty r =>
    simp only [BOp.call, BOp.exec, bsIsEmpty, mapLen, GoM.bind_def, GoM.pure_apply, BState.Ok, BState.step]
    refine ⟨⟨_, rfl, ?_⟩, h⟩
    rw [decide_eq_true_iff, ← (h.of r).empty_iff]
    omega
  | len r =>
    simp only [BOp.call, BOp.exec, bsLen, mapLen, GoM.bind_def, GoM.pure_apply, BState.Ok, BState.step]
    exact ⟨⟨_, rfl, _, h.of r, rfl⟩, h⟩
  | clear r =>
    cases r with
    | none =>
      simp only [BOp.call, BOp.exec, bsClear, mapRange, GoM.bind_def, deleteAll_nil, GoM.pure_apply, BState.Ok, BState.step, true_and]
      exact h.loops _
    | some i =>
      simp only [BOp.call, BOp.exec, bsClear, mapRange, GoM.bind_def, deleteAll_eq, GoM.pure_apply, BState.Ok, BState.step, true_and]
      refine (h.loops _).put i ?_
      have hl : Lists (st.mem i) (rt.order w.loops (w.maps i)) := (h.2 i).perm (hrt _ _)
      have := Lists.deleteAll (rt.order w.loops (w.maps i)) (h.2 i)
      have e : (fun x => st.mem i x && !(rt.order w.loops (w.maps i)).any (fun k => GoEq.eq x k)) = fun _ => false := by
        funext x
        rw [hl.any]
        simp
      rw [e] at this
      exact this
  | has r k =>
    simp only [BOp.call, BOp.exec, bsHas, mapHas, GoM.bind_def, GoM.pure_apply, BState.Ok, BState.step, (h.of r).any]
    exact ⟨trivial, h⟩
  | insert r k =>
    cases r with
    | none =>
      simp only [BOp.call, BOp.exec, bsInsert, mapLen, mapSet, GoM.bind_def, GoM.panic, BState.Ok, BState.step, BState.change, true_and]
      exact h
    | some i =>
      have ha := (h.2 i).assign rt.replace k
      simp only [BOp.call, BOp.exec, bsInsert_eq, GoM.bind_def, GoM.pure_apply, BState.Ok, BState.step, BState.of]
      refine ⟨?_, h.put i ha.1⟩
      rw [ha.2]
      cases st.mem i k <;> simp
  | insertN r ks =>
    cases r with
    | none =>
      cases ks with
      | nil =>
        simp only [BOp.call, BOp.exec, bsInsertN, mapLen, setAll, GoM.bind_def, GoM.pure_apply, BState.Ok, BState.step, BState.change, List.length_nil, if_true]
        exact ⟨by simp, h⟩
      | cons k ks =>
        simp only [BOp.call, BOp.exec, bsInsertN, mapLen, setAll, mapSet, GoM.bind_def, GoM.panic, BState.Ok, BState.step, BState.change]
        exact ⟨by simp, h⟩
    | some i =>
      have ha := Lists.assignAll rt.replace ks (h.2 i)
      simp only [BOp.call, BOp.exec, bsInsertN, mapLen, setAll_eq, GoM.bind_def, GoM.pure_apply, BState.Ok]
      refine ⟨⟨_, _, ⟨_, h.2 i, rfl⟩, ⟨ks.foldl (assignKey rt.replace) (w.maps i), ?_, rfl⟩, ?_⟩, h.put i ha⟩
      · simpa [BState.step, BState.change, BState.of] using ha
      · simp [MWorld.keysOf]
  | remove r k =>
    cases r with
    | none =>
      simp only [BOp.call, BOp.exec, bsRemove, mapHas, mapDelete, GoM.bind_def, GoM.pure_apply, BState.Ok, BState.step, BState.change]
      exact ⟨rfl, h⟩
    | some i =>
      simp only [BOp.call, BOp.exec, bsRemove, mapHas, mapDelete, GoM.bind_def, GoM.modify, GoM.pure_apply, BState.Ok, BState.step, (h.of (some i)).any, true_and]
      exact h.put i ((h.2 i).delete k)
  | delete r k =>
    cases r with
    | none =>
      simp only [BOp.call, BOp.exec, bsDelete, mapDelete, GoM.bind_def, GoM.pure_apply, BState.Ok, BState.step, BState.change]
      exact ⟨trivial, h⟩
    | some i =>
      simp only [BOp.call, BOp.exec, bsDelete, mapDelete, GoM.bind_def, GoM.modify, GoM.pure_apply, BState.Ok, BState.step, true_and]
      exact h.put i ((h.2 i).delete k)
  | removeN r ks =>
    cases r with
    | none =>
      simp only [BOp.call, BOp.exec, bsRemoveN, mapLen, deleteAll_nil, GoM.bind_def, GoM.pure_apply, BState.Ok]
      refine ⟨⟨0, 0, ⟨[], Lists.nil, rfl⟩, ⟨[], Lists.nil, rfl⟩, ?_⟩, h⟩
      simp [MWorld.keysOf]
    | some i =>
      have ha := Lists.deleteAll ks (h.2 i)
      simp only [BOp.call, BOp.exec, bsRemoveN, mapLen, deleteAll_eq, GoM.bind_def, GoM.pure_apply, BState.Ok]
      refine ⟨⟨_, _, ⟨_, h.2 i, rfl⟩, ⟨ks.foldl (fun l k => l.filter (fun e => !GoEq.eq k e)) (w.maps i), ?_, rfl⟩, ?_⟩, h.put i ha⟩
      · simpa [BState.step, BState.change, BState.of] using ha
      · simp [MWorld.keysOf]
  | keys r =>
    simp only [BOp.call, BOp.exec, bsKeys, mapRange, GoM.bind_def, GoM.pure_apply, BState.Ok, BState.step, keysLoop_eq, List.nil_append]
    exact ⟨⟨_, rfl, (h.of r).perm (hrt _ _)⟩, h⟩
  | update r o =>
    have hl : Lists (st.of o) (rt.order w.loops (w.keysOf o)) := (h.of o).perm (hrt _ _)
    cases r with
    | none =>
      simp only [BOp.call, BOp.exec, bsUpdate, mapRange, GoM.bind_def, GoM.pure_apply, BState.Ok, BState.step, BState.change]
      cases hks : rt.order w.loops (w.keysOf o) with
      | nil =>
        rw [hks] at hl
        simp only [setAll, GoM.pure_apply]
        refine ⟨⟨fun _ => trivial, ?_⟩, h⟩
        rintro ⟨k, hk⟩
        rw [hl.empty_iff.1 rfl k] at hk
        cases hk
      | cons k ks =>
        rw [hks] at hl
        simp only [setAll, mapSet, GoM.bind_def, GoM.panic]
        refine ⟨⟨fun hz => ?_, fun _ => trivial⟩, h⟩
        have := hl.empty_iff.2 hz
        simp at this
    | some i =>
      simp only [BOp.call, BOp.exec, bsUpdate, mapRange, GoM.bind_def, setAll_eq, GoM.pure_apply, BState.Ok, BState.step, true_and]
      refine (h.loops _).put i ?_
      have := Lists.assignAll rt.replace (rt.order w.loops (w.keysOf o)) (h.2 i)
      simpa only [hl.any, BState.of] using this
  | union r o =>
    obtain ⟨hr, ho⟩ := hv
    rw [← hn] at hr ho
    simp only [BOp.call, BOp.exec, bsUnion_eq rt w r o hr.ne ho.ne, GoM.bind_def, GoM.pure_apply, BState.Ok, BState.step]
    refine ⟨by rw [hn], h.new (Lists.fill _ _ fun x => ?_)⟩
    rw [List.any_append, ((h.of r).perm (hrt _ _)).any, ((h.of o).perm (hrt _ _)).any]
  | inter r o =>
    obtain ⟨hr, ho⟩ := hv
    rw [← hn] at hr ho
    obtain ⟨small, large, hsl, he⟩ := bsInter_eq rt w r o hr.ne ho.ne
    simp only [BOp.call, BOp.exec, he, GoM.bind_def, GoM.pure_apply, BState.Ok, BState.step]
    refine ⟨by rw [hn], h.new (Lists.fill _ _ fun x => ?_)⟩
    rw [(h.of large).filterAny, ((h.of small).perm (hrt _ _)).any_filter (fun a b hab => (h.of large).congr hab)]
    rcases hsl with ⟨rfl, rfl⟩ | ⟨rfl, rfl⟩
    · rfl
    · rw [Bool.and_comm]
  | diff r o =>
    obtain ⟨hr, ho⟩ := hv
    rw [← hn] at hr ho
    simp only [BOp.call, BOp.exec, bsDiff_eq rt w r o hr.ne ho.ne, GoM.bind_def, GoM.pure_apply, BState.Ok, BState.step]
    refine ⟨by rw [hn], h.new (Lists.fill _ _ fun x => ?_)⟩
    have e : (fun k => !(w.keysOf o).any (fun e => GoEq.eq k e)) = fun k => !st.of o k := by
      funext k
      rw [(h.of o).any]
    rw [e, ((h.of r).perm (hrt _ _)).any_filter (fun a b hab => by rw [(h.of o).congr hab])]
  | disjoint r o =>
    obtain ⟨small, large, hsl, he⟩ := bsDisjoint_eq rt w r o
    simp only [BOp.call, BOp.exec, he, GoM.bind_def, GoM.pure_apply, BState.Ok, BState.step]
    refine ⟨⟨_, rfl, ?_⟩, h⟩
    have e : (fun k => !(w.keysOf large).any (fun e => GoEq.eq k e)) = fun k => !st.of large k := by
      funext k
      rw [(h.of large).any]
    rw [e, all_lists ((h.of small).perm (hrt _ _)) _ (fun a b hab => by rw [(h.of large).congr hab])]
    refine forall_congr' fun k => ?_
    rcases hsl with ⟨rfl, rfl⟩ | ⟨rfl, rfl⟩ <;> cases st.of small k <;> cases st.of large k <;> simp
  | subset r o =>
    obtain ⟨n, he⟩ := bsSubset_eq rt w r o
    simp only [BOp.call, BOp.exec, he, GoM.bind_def, GoM.pure_apply, BState.Ok, BState.step]
    refine ⟨⟨_, rfl, ?_⟩, h⟩
    have e : (fun k => (w.keysOf o).any (fun e => GoEq.eq k e)) = st.of o := by
      funext k
      rw [(h.of o).any]
    rw [Bool.and_eq_true, e, all_lists ((h.of r).perm (hrt _ _)) _ (fun a b hab => (h.of o).congr hab)]
    refine ⟨fun hh => hh.2, fun hh => ⟨?_, hh⟩⟩
    have := (h.of r).length_le (h.of o) hh
    simp
    omega
  | superset r o =>
    obtain ⟨n, he⟩ := bsSubset_eq rt w o r
    simp only [BOp.call, BOp.exec, bsIsSupersetOf, he, GoM.bind_def, GoM.pure_apply, BState.Ok, BState.step]
    refine ⟨⟨_, rfl, ?_⟩, h⟩
    have e : (fun k => (w.keysOf r).any (fun e => GoEq.eq k e)) = st.of r := by
      funext k
      rw [(h.of r).any]
    rw [Bool.and_eq_true, e, all_lists ((h.of o).perm (hrt _ _)) _ (fun a b hab => (h.of r).congr hab)]
    refine ⟨fun hh => hh.2, fun hh => ⟨?_, hh⟩⟩
    have := (h.of o).length_le (h.of r) hh
    simp
    omega

theorem MWorld.run_ok [LawfulGoEq K] (rt : MapRt K) (hrt : rt.Fair) (ops : List (BOp K)) : ∀ (w : MWorld K) (st : BState K), BRel w st →
    st.Legal ops → st.Matches ops (w.run rt ops) := by
  induction ops with
  | nil => intro w st _ _; rfl
  | cons op ops ih =>
    intro w st h hl
    have := op.call_ok rt hrt w st h hl.1
    exact ⟨_, _, rfl, this.1, ih _ _ this.2 hl.2⟩

theorem MWorld.after_ok [LawfulGoEq K] (rt : MapRt K) (hrt : rt.Fair) (ops : List (BOp K)) : ∀ (w : MWorld K) (st : BState K), BRel w st →
    st.Legal ops → ∃ st', BRel (w.after rt ops) st' := by
  induction ops with
  | nil => intro w st h _; exact ⟨st, h⟩
  | cons op ops ih =>
    intro w st h hl
    exact ih _ _ (op.call_ok rt hrt w st h hl.1).2 hl.2

theorem BRel.empty : BRel (MWorld.empty : MWorld K) BState.empty := ⟨rfl, fun _ => Lists.nil⟩

theorem MWorld.Proper.rel {w : MWorld K} (h : w.Proper) : BRel w { mem := fun i => w.set (some i), next := w.next } :=
  ⟨rfl, fun i => (lists_iff _ _).2 ⟨h i, fun _ => rfl⟩⟩

theorem BRel.proper {w : MWorld K} {st : BState K} (h : BRel w st) : w.Proper := fun i => (h.2 i).1

theorem BRel.set {w : MWorld K} {st : BState K} (h : BRel w st) (r : MRef) : w.set r = st.of r := by
  funext k
  exact (h.of r).any k

theorem MWorld.set_of (w : MWorld K) (r : MRef) : BState.of { mem := fun i => w.set (some i), next := w.next } r = w.set r := by
  cases r <;> rfl

omit [GoEq K] in
theorem bsForEachIfLoop_eq (cb : σ → K → σ × Bool) (ks : List K) : ∀ t, bsForEachIfLoop cb ks t = visitWhile1 cb t ks := by
  induction ks with
  | nil => intro t; rfl
  | cons k ks ih => intro t; simp [bsForEachIfLoop, visitWhile1, ih]

omit [GoEq K] in
theorem bsForEachLoop_eq (cb : σ → K → σ) (ks : List K) : ∀ t, bsForEachLoop cb ks t = ks.foldl cb t := by
  induction ks with
  | nil => intro t; rfl
  | cons k ks ih => intro t; simp [bsForEachLoop, ih]

end Stl4go
