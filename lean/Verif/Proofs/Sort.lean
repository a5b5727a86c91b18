import Verif.Spec.Sort
import Verif.Proofs.Order
import Verif.Proofs.Slice
/-! # Lemmas about `sort.go` -/
namespace Stl4go
variable {T : Type} {less : T → T → Bool}

theorem sortedBy_pairwise (a : List T) : SortedBy less a ↔ a.Pairwise (fun x y => less y x = false) := by
  rw [List.pairwise_iff_getElem]
  exact ⟨fun h i j hi hj hij => h i j hi hj hij, fun h i j hi hj hij => h i j hi hj hij⟩

/-- A program only exchanges elements. -/
theorem SortProg.onList_perm (p : SortProg) : ∀ {a out : List T}, p.onList less a = some out → out.Perm a := by
  induction p with
  | done => intro a out h; cases h; exact List.Perm.refl _
  | less i j k ih =>
    intro a out h
    simp only [SortProg.onList] at h
    split at h
    · exact ih _ h
    · cases h
  | swap i j k ih =>
    intro a out h
    simp only [SortProg.onList] at h
    split at h
    · rename_i x y hx hy
      obtain ⟨hi, rfl⟩ := List.getElem?_eq_some_iff.1 hx
      obtain ⟨hj, rfl⟩ := List.getElem?_eq_some_iff.1 hy
      exact (ih h).trans (List.set_set_perm hi hj)
    · cases h

theorem sortSwap_eq (a : Sl) (m : Mem T) (xs : List T) (hl : xs.length = a.len) (i j : Nat) (hi : i < xs.length) (hj : j < xs.length) :
    sortSwap a i j (m.write a.off xs) = .ok () (m.write a.off ((xs.set i xs[j]).set j xs[i])) := by
  unfold sortSwap
  simp only [GoM.bind_def, Sl.get_write a m xs hl j hj, Sl.get_write a m xs hl i hi, Sl.put_write a m xs hl i _ hi]
  rw [Sl.put_write a m _ (by simpa using hl) j _ (by simpa using hj)]

/-- Running a program on a slice does to its elements what the program does to a list. -/
theorem SortProg.run_eq (p : SortProg) (a : Sl) (m : Mem T) (f : Sl → SortIface (Mem T))
    (hless : ∀ i j, (f a).less i j = (do let y ← a.get i; let z ← a.get j; return less y z)) (hswap : ∀ i j, (f a).swap i j = sortSwap a i j) :
    ∀ {xs out : List T}, xs.length = a.len → p.onList less xs = some out → p.run (f a) (m.write a.off xs) = .ok () (m.write a.off out) := by
  induction p with
  | done => intro xs out _ h; cases h; rfl
  | less i j k ih =>
    intro xs out hl h
    simp only [SortProg.onList] at h
    split at h
    · rename_i x y hx hy
      obtain ⟨hi, rfl⟩ := List.getElem?_eq_some_iff.1 hx
      obtain ⟨hj, rfl⟩ := List.getElem?_eq_some_iff.1 hy
      simp only [SortProg.run, hless, GoM.bind_def, Sl.get_write a m xs hl i hi, Sl.get_write a m xs hl j hj, GoM.pure_apply]
      exact ih _ hl h
    · cases h
  | swap i j k ih =>
    intro xs out hl h
    simp only [SortProg.onList] at h
    split at h
    · rename_i x y hx hy
      obtain ⟨hi, rfl⟩ := List.getElem?_eq_some_iff.1 hx
      obtain ⟨hj, rfl⟩ := List.getElem?_eq_some_iff.1 hy
      simp only [SortProg.run, hswap, GoM.bind_def, sortSwap_eq a m xs hl i j hi hj]
      exact ih (by simpa using hl) h
    · cases h

theorem goSort_eq (sort : Nat → SortProg) (a : Sl) (m : Mem T) (f : Sl → SortIface (Mem T)) (hlen : (f a).len = pure a.len)
    (hless : ∀ i j, (f a).less i j = (do let y ← a.get i; let z ← a.get j; return less y z)) (hswap : ∀ i j, (f a).swap i j = sortSwap a i j)
    {out : List T} (h : (sort (a.read m).length).onList less (a.read m) = some out) :
    goSort sort (f a) m = .ok () (m.write a.off out) := by
  rw [Sl.read_length] at h
  have := SortProg.run_eq (sort a.len) a m f hless hswap (by simp) h
  rw [Sl.write_read] at this
  simpa [goSort, GoM.bind_def, hlen] using this

/-! ## Checking -/

theorem isSortedLoop_iff [GoOrd T] (a : List T) : ∀ prev, isSortedLoop a prev = true ↔ Neighbours (fun x y => GoOrd.lt y x = false) (prev :: a) := by
  induction a with
  | nil => intro prev; simp [isSortedLoop, Neighbours]
  | cons v a ih =>
    intro prev
    rw [Neighbours, ← ih v]
    cases h : GoOrd.lt v prev <;> simp [isSortedLoop, h]

theorem isDescSortedLoop_iff [GoOrd T] (a : List T) : ∀ prev, isDescSortedLoop a prev = true ↔ Neighbours (fun x y => GoOrd.lt x y = false) (prev :: a) := by
  induction a with
  | nil => intro prev; simp [isDescSortedLoop, Neighbours]
  | cons v a ih =>
    intro prev
    rw [Neighbours, ← ih v]
    cases h : GoOrd.lt prev v <;> simp [isDescSortedLoop, h]

theorem isSorted_ret [GoOrd T] (a : List T) : ∃ b, isSorted a = .ret b ∧ (b = true ↔ Neighbours (fun x y => GoOrd.lt y x = false) a) := by
  cases a with
  | nil => exact ⟨true, rfl, by simp [Neighbours]⟩
  | cons x a => exact ⟨isSortedLoop a x, rfl, isSortedLoop_iff a x⟩

theorem isDescSorted_ret [GoOrd T] (a : List T) : ∃ b, isDescSorted a = .ret b ∧ (b = true ↔ Neighbours (fun x y => GoOrd.lt x y = false) a) := by
  cases a with
  | nil => exact ⟨true, rfl, by simp [Neighbours]⟩
  | cons x a => exact ⟨isDescSortedLoop a x, rfl, isDescSortedLoop_iff a x⟩

/-- For a strict weak order adjacent pairs are enough. -/
theorem chain_iff_pairwise (hw : StrictWeak less) (a : List T) :
    Neighbours (fun x y => less y x = false) a ↔ a.Pairwise (fun x y => less y x = false) := by
  induction a with
  | nil => simp [Neighbours]
  | cons x a ih =>
    rw [List.pairwise_cons, ← ih]
    cases a with
    | nil => simp [Neighbours]
    | cons y a =>
      rw [Neighbours]
      constructor
      · rintro ⟨h1, h2⟩
        refine ⟨?_, h2⟩
        have h3 := List.pairwise_cons.1 (ih.1 h2)
        intro z hz
        rcases List.mem_cons.1 hz with rfl | hz
        · exact h1
        · exact hw.negTrans (h3.1 z hz) h1
      · rintro ⟨h1, h2⟩
        exact ⟨h1 y (by simp), h2⟩

/-! ## Stable results are unique -/

theorem stable_unique (hw : StrictWeak less) : ∀ (a b : List T), a.Pairwise (fun x y => less y x = false) → b.Pairwise (fun x y => less y x = false) →
    (∀ x, a.filter (fun y => !less x y && !less y x) = b.filter (fun y => !less x y && !less y x)) → a = b := by
  intro a
  induction a with
  | nil =>
    intro b _ _ h
    cases b with
    | nil => rfl
    | cons y b =>
      have := h y
      simp [hw.irrefl] at this
  | cons x a ih =>
    intro b ha hb h
    have hmem : ∀ {a b : List T}, (∀ x, a.filter (fun y => !less x y && !less y x) = b.filter (fun y => !less x y && !less y x)) → ∀ z ∈ a, z ∈ b := by
      intro a b h z hz
      have : z ∈ a.filter (fun y => !less z y && !less y z) := List.mem_filter.2 ⟨hz, by simp [hw.irrefl]⟩
      rw [h z] at this
      exact (List.mem_filter.1 this).1
    cases b with
    | nil => exact absurd (hmem h x (by simp)) (by simp)
    | cons y b =>
      have hxb := hmem h x (by simp)
      have hya := hmem (fun z => (h z).symm) y (by simp)
      have h1 : less x y = false := by
        rcases List.mem_cons.1 hxb with rfl | hx
        · exact hw.irrefl _
        · exact (List.pairwise_cons.1 hb).1 x hx
      have h2 : less y x = false := by
        rcases List.mem_cons.1 hya with rfl | hy
        · exact hw.irrefl _
        · exact (List.pairwise_cons.1 ha).1 y hy
      have h3 := h x
      simp only [List.filter_cons, hw.irrefl, h1, h2, Bool.not_false, Bool.and_self, if_true, List.cons.injEq] at h3
      obtain ⟨rfl, _⟩ := h3
      congr 1
      refine ih b (List.pairwise_cons.1 ha).2 (List.pairwise_cons.1 hb).2 (fun z => ?_)
      have h4 := h z
      simp only [List.filter_cons] at h4
      split at h4
      · exact (List.cons.inj h4).2
      · exact h4

/-! ## The reference -/

theorem insertLast_pairwise (hw : StrictWeak less) (x : T) : ∀ r : List T, r.reverse.Pairwise (fun x y => less y x = false) →
    (insertLast less x r).Pairwise (fun x y => less y x = false) ∧ (insertLast less x r).Perm (x :: r) := by
  intro r
  induction r with
  | nil => intro _; simp [insertLast]
  | cons y r ih =>
    intro h
    rw [List.reverse_cons, List.pairwise_append] at h
    obtain ⟨h1, _, h3⟩ := h
    obtain ⟨i1, i2⟩ := ih h1
    unfold insertLast
    split
    · rename_i hxy
      refine ⟨List.pairwise_append.2 ⟨i1, by simp, ?_⟩, ?_⟩
      · intro z hz w hw'
        simp only [List.mem_singleton] at hw'
        subst hw'
        rcases List.mem_cons.1 (i2.mem_iff.1 hz) with rfl | hz
        · exact hw.asymm hxy
        · exact h3 z (by simpa using hz) w (by simp)
      · refine (List.Perm.append_right [y] i2).trans ?_
        refine List.Perm.cons x ?_
        exact List.perm_append_comm.trans (List.Perm.refl _)
    · rename_i hxy
      have hxy : less x y = false := by simpa using hxy
      refine ⟨?_, List.reverse_perm _⟩
      rw [List.reverse_cons, List.reverse_cons]
      refine List.pairwise_append.2 ⟨List.pairwise_append.2 ⟨h1, by simp, h3⟩, by simp, ?_⟩
      intro z hz w hw'
      simp only [List.mem_singleton] at hw'
      subst hw'
      rcases List.mem_append.1 hz with hz | hz
      · exact hw.negTrans hxy (h3 z hz y (by simp))
      · simp only [List.mem_singleton] at hz
        subst hz
        exact hxy

theorem insertLast_filter (hw : StrictWeak less) (x e : T) : ∀ r : List T,
    (insertLast less x r).filter (fun y => !less e y && !less y e) =
      r.reverse.filter (fun y => !less e y && !less y e) ++ [x].filter (fun y => !less e y && !less y e) := by
  intro r
  induction r with
  | nil => simp [insertLast]
  | cons y r ih =>
    unfold insertLast
    split
    · rename_i hxy
      rw [List.filter_append, ih, List.reverse_cons, List.filter_append, List.append_assoc, List.append_assoc]
      congr 1
      -- `x` and `y` are not both equivalent to `e`
      by_cases hx : (!less e x && !less x e) = true
      · have hy : (!less e y && !less y e) = false := by
          simp only [Bool.and_eq_true, Bool.not_eq_true'] at hx
          have : less e y = true := hw.lt_of_not_of_lt hx.2 hxy
          simp [this]
        simp [hy]
      · simp [hx]
    · rw [List.reverse_cons, List.filter_append]

theorem sortedStably_spec (hw : StrictWeak less) (a : List T) :
    SortedBy less (sortedStably less a) ∧ KeepsOrder less a (sortedStably less a) ∧ (sortedStably less a).Perm a := by
  have key : ∀ (a acc : List T), acc.Pairwise (fun x y => less y x = false) →
      (a.foldl (fun out x => insertLast less x out.reverse) acc).Pairwise (fun x y => less y x = false) ∧
      (∀ e, (a.foldl (fun out x => insertLast less x out.reverse) acc).filter (fun y => !less e y && !less y e) =
        acc.filter (fun y => !less e y && !less y e) ++ a.filter (fun y => !less e y && !less y e)) ∧
      (a.foldl (fun out x => insertLast less x out.reverse) acc).Perm (acc ++ a) := by
    intro a
    induction a with
    | nil => intro acc h; simp [h]
    | cons x a ih =>
      intro acc h
      have h1 := insertLast_pairwise hw x acc.reverse (by simpa using h)
      obtain ⟨i1, i2, i3⟩ := ih _ h1.1
      refine ⟨i1, fun e => ?_, ?_⟩
      · simp only [List.foldl_cons]
        rw [i2 e, insertLast_filter hw x e, List.reverse_reverse, List.append_assoc, ← List.filter_append]
        rfl
      · simp only [List.foldl_cons]
        refine i3.trans ?_
        have : (insertLast less x acc.reverse).Perm (acc ++ [x]) := h1.2.trans ((List.Perm.cons x (List.reverse_perm acc)).trans (List.perm_append_comm (l₁ := [x])))
        have := List.Perm.append_right a this
        simpa using this
  obtain ⟨h1, h2, h3⟩ := key a [] (by simp)
  exact ⟨(sortedBy_pairwise _).2 h1, fun e => by simpa [sortedStably] using h2 e, by simpa [sortedStably] using h3⟩

theorem stable_eq (hw : StrictWeak less) {a out : List T} (h1 : SortedBy less out) (h2 : KeepsOrder less a out) : out = sortedStably less a := by
  obtain ⟨s1, s2, _⟩ := sortedStably_spec hw a
  exact stable_unique hw _ _ ((sortedBy_pairwise _).1 h1) ((sortedBy_pairwise _).1 s1) (fun x => (h2 x).trans (s2 x).symm)

end Stl4go
