import Verif.Proofs.ReadBound
import Verif.Props.Looks
import Verif.Props.Lookup
import Verif.Props.Compare
import Verif.Props.Numeric
import Verif.Props.Sort
/-! # Property C191: which elements have to be looked at (`/repo/compute.go`, `/repo/lookup.go`, `/repo/compare.go`, `/repo/sort.go`) -/
namespace Stl4go
variable {T : Type}

/-- C191: no way to find the sum of integers of a Go type, as `Sum` gives it, leaves an element out. -/
theorem C191_sum {pf : Platform} (hw : pf.Real) (g : GoInt) (xs : List Int) (hx : ∀ x ∈ xs, g.Holds pf.w x) : MustReadAll (g.Holds pf.w) (fun a : List Int => sum pf (.int g) a) xs := by
  refine mustReadAll hx fun l x r e => ?_
  obtain ⟨h0, h1⟩ := holds_zero_one hw g
  have key : ∀ y : Int, g.Holds pf.w y → (fun a : List Int => sum pf (.int g) a) (l ++ y :: r) = (fun a : List Int => sum pf (.int g) a) xs → y = x := by
    intro y hy he
    have e1 := C71_sum hw g (l ++ y :: r)
    have e2 := C71_sum hw g xs
    have he : sum pf (.int g) (l ++ y :: r) = sum pf (.int g) xs := he
    rw [he] at e1
    obtain ⟨-, n1, e3⟩ := e1
    obtain ⟨-, n2, e4⟩ := e2
    generalize (sum pf (.int g) xs : Int) = s at e3 e4
    rw [e, List.sum_append, List.sum_cons] at e4
    rw [List.sum_append, List.sum_cons] at e3
    have hd : y = x + (n2 - n1) * 2 ^ g.bits pf.w := by
      rw [Int.sub_mul]
      omega
    exact C71_unique hw g x y x ⟨hy, _, hd⟩ ⟨hx x (by rw [e]; simp), 0, by simp⟩
  by_cases hx0 : x = 0
  · exact ⟨1, h1, fun he => by have := key 1 h1 he; omega⟩
  · exact ⟨0, h0, fun he => hx0 (key 0 h0 he).symm⟩

/-- C191: no way to count the elements that meet a condition, which some values meet and some do not, leaves an element out; `CountIf` and, for integers, `Count`. -/
theorem C191_count (p : T → Bool) (y n : T) (hy : p y = true) (hn : p n = false) (xs : List T) :
    MustReadAll (fun _ => True) (fun a : List T => countIf a p) xs ∧ ∀ (x : Int) (zs : List Int), MustReadAll (fun _ => True) (fun a : List Int => count a x) zs := by
  have gen : ∀ {S : Type} (q : S → Bool) (u v : S), q u = true → q v = false → ∀ xs : List S, MustReadAll (fun _ => True) (fun a : List S => (a.filter q).length) xs := by
    intro S q u v hu hv xs
    refine mustReadAll (fun _ _ => trivial) fun l x r e => ?_
    subst e
    cases hq : q x with
    | true => exact ⟨v, trivial, by simp [List.filter_append, hq, hv]⟩
    | false => exact ⟨u, trivial, by simp [List.filter_append, hq, hu]⟩
  refine ⟨?_, fun x zs => ?_⟩
  · simp only [C70_countIf]
    exact gen p y n hy hn xs
  · simp only [C70_count]
    exact gen _ x (x + 1) (by simp [GoEq.eq]) (by simp [GoEq.eq]; omega) zs

/-- C191: whoever finds that all elements meet a condition, or that none does, has looked at all of them; `AllOf`, `AnyOf`, `NoneOf` and `FindIf`. -/
theorem C191_conditions (p : T → Bool) (y n : T) (hy : p y = true) (hn : p n = false) (xs : List T) :
    ((∀ x ∈ xs, p x = true) → MustReadAll (fun _ => True) (fun a : List T => allOf a p) xs) ∧
    ((∀ x ∈ xs, p x = false) → MustReadAll (fun _ => True) (fun a : List T => anyOf a p) xs ∧ MustReadAll (fun _ => True) (fun a : List T => noneOf a p) xs ∧
      MustReadAll (fun _ => True) (fun a : List T => findIf a p) xs) := by
  refine ⟨fun h => ?_, fun h => ⟨?_, ?_, ?_⟩⟩ <;> refine mustReadAll (fun _ _ => trivial) fun l x r e => ?_
  · refine ⟨n, trivial, fun he => ?_⟩
    rw [(C70_allOf xs p).2 h] at he
    have := (C70_allOf (l ++ n :: r) p).1 he n (by simp)
    rw [hn] at this; cases this
  · refine ⟨y, trivial, fun he => ?_⟩
    simp only [(C70_anyOf (l ++ y :: r) p).2 ⟨y, by simp, hy⟩] at he
    obtain ⟨z, hz, hp⟩ := (C70_anyOf xs p).1 he.symm
    rw [h z hz] at hp; cases hp
  · refine ⟨y, trivial, fun he => ?_⟩
    simp only [(C70_noneOf xs p).2 h] at he
    have := (C70_noneOf (l ++ y :: r) p).1 he y (by simp)
    rw [hy] at this; cases this
  · refine ⟨y, trivial, fun he => ?_⟩
    have h1 : findIf xs p = (-1, false) := by
      rcases C69_findIf xs p with ⟨i, hi, -, h2, -⟩ | ⟨h1, -⟩
      · rw [h _ (List.getElem_mem hi)] at h2; cases h2
      · exact h1
    rcases C69_findIf (l ++ y :: r) p with ⟨i, hi, h2, -, -⟩ | ⟨-, h2⟩
    · rw [h1, h2] at he; cases he
    · have := h2 y (by simp)
      rw [hy] at this; cases this

/-- C191: for integers, whoever finds that a value is not there (`Find`, `Index`), or that two lists are equal (`Equal`), or finds the least or the greatest (`MinN`, `MaxN`, in every case),
has looked at all elements. -/
theorem C191_integers (xs : List Int) (v : Int) :
    (v ∉ xs → MustReadAll (fun _ => True) (fun a : List Int => find a v) xs ∧ MustReadAll (fun _ => True) (fun a : List Int => index a v) xs) ∧
    MustReadAll (fun _ => True) (fun a : List Int => equal a xs) xs ∧
    MustReadAll (fun _ => True) (fun a : List Int => minN a) xs ∧ MustReadAll (fun _ => True) (fun a : List Int => maxN a) xs := by
  have heq : ∀ x y : Int, GoEq.eq x y = true ↔ x = y := fun x y => by simp [GoEq.eq]
  have hlt : ∀ x y : Int, GoOrd.lt x y = false ↔ ¬ x < y := fun x y => by simp [GoOrd.lt]
  refine ⟨fun h => ⟨?_, ?_⟩, ?_, ?_, ?_⟩ <;> refine mustReadAll (fun _ _ => trivial) fun l x r e => ?_
  · refine ⟨v, trivial, fun he => ?_⟩
    have h1 : find xs v = (-1, false) := by
      rcases C69_find xs v with ⟨i, hi, -, h2, -⟩ | ⟨h1, -⟩
      · exact absurd ((heq _ _).1 h2 ▸ List.getElem_mem hi) h
      · exact h1
    rcases C69_find (l ++ v :: r) v with ⟨i, hi, h2, -, -⟩ | ⟨-, h2⟩
    · rw [h1, h2] at he; cases he
    · have := h2 v (by simp)
      rw [(heq v v).2 rfl] at this; cases this
  · refine ⟨v, trivial, fun he => ?_⟩
    have h1 : index xs v = -1 := by
      rcases C69_index xs v with ⟨i, hi, -, h2, -⟩ | ⟨h1, -⟩
      · exact absurd ((heq _ _).1 h2 ▸ List.getElem_mem hi) h
      · exact h1
    rcases C69_index (l ++ v :: r) v with ⟨i, hi, h2, -, -⟩ | ⟨-, h2⟩
    · rw [h1, h2] at he; omega
    · have := h2 v (by simp)
      rw [(heq v v).2 rfl] at this; cases this
  · refine ⟨x + 1, trivial, fun he => ?_⟩
    obtain ⟨b, hb, hb'⟩ := C65_equal xs xs
    have hxs : ∀ zs : List Int, EqSeq zs zs := fun zs => by
      induction zs with
      | nil => exact .nil
      | cons z zs ih => exact .cons ((heq z z).2 rfl) ih
    rw [hb, hb'.2 (hxs xs)] at he
    obtain ⟨b2, hb2, hb2'⟩ := C65_equal (l ++ (x + 1) :: r) xs
    rw [hb2] at he
    injection he with he
    have := eqSeq_int (hb2'.1 he)
    rw [e, List.append_cancel_left_eq, List.cons.injEq] at this
    omega
  · obtain ⟨m, h1, h2, h3⟩ := C68_minN xs (by rw [e]; simp)
    refine ⟨m - 1, trivial, fun he => ?_⟩
    obtain ⟨m', h4, -, h6⟩ := C68_minN (l ++ (m - 1) :: r) (by simp)
    rw [h1, h4] at he
    injection he with he
    have := (hlt _ _).1 (h6 (m - 1) (by simp))
    omega
  · obtain ⟨m, h1, h2, h3⟩ := C68_maxN xs (by rw [e]; simp)
    refine ⟨m + 1, trivial, fun he => ?_⟩
    obtain ⟨m', h4, -, h6⟩ := C68_maxN (l ++ (m + 1) :: r) (by simp)
    rw [h1, h4] at he
    injection he with he
    have := (hlt _ _).1 (h6 (m + 1) (by simp))
    omega

/-- C191: for integers, whoever finds that two or more elements are in ascending or in descending order (`IsSorted`, `IsDescSorted`), or that a list is neither before nor behind another
(`Compare`), has looked at all elements. -/
theorem C191_order (xs : List Int) :
    (2 ≤ xs.length → xs.Pairwise (· ≤ ·) → MustReadAll (fun _ => True) (fun a : List Int => isSorted a) xs) ∧
    (2 ≤ xs.length → xs.Pairwise (· ≥ ·) → MustReadAll (fun _ => True) (fun a : List Int => isDescSorted a) xs) ∧
    MustReadAll (fun _ => True) (fun a : List Int => compare a xs) xs := by
  have h1 : ∀ zs : List Int, isSorted zs = .ret true ↔ zs.Pairwise (· ≤ ·) := fun zs => by
    obtain ⟨b, e, h⟩ := C64_isSorted zs
    rw [e, ← show b = true ↔ zs.Pairwise (· ≤ ·) by rw [h, sortedBy_pairwise]; simp [GoOrd.lt]]
    simp
  have h2 : ∀ zs : List Int, isDescSorted zs = .ret true ↔ zs.Pairwise (· ≥ ·) := fun zs => by
    obtain ⟨b, e, h⟩ := C64_isDescSorted zs
    rw [e, ← show b = true ↔ zs.Pairwise (· ≥ ·) by rw [h, sortedBy_pairwise]; simp [GoOrd.lt]]
    simp
  have other : ∀ {l : List Int} {x : Int} {r : List Int}, 2 ≤ (l ++ x :: r).length → (∃ z, z ∈ l) ∨ ∃ z, z ∈ r := by
    intro l x r hl
    cases l with
    | cons z l => exact .inl ⟨z, by simp⟩
    | nil => cases r with
      | cons z r => exact .inr ⟨z, by simp⟩
      | nil => simp at hl
  refine ⟨fun hl hs => ?_, fun hl hs => ?_, ?_⟩ <;> refine mustReadAll (fun _ _ => trivial) fun l x r e => ?_
  · subst e
    rcases other hl with ⟨z, hz⟩ | ⟨z, hz⟩
    · refine ⟨z - 1, trivial, fun he => ?_⟩
      have := (List.pairwise_append.1 ((h1 _).1 (he.trans ((h1 _).2 hs)))).2.2 z hz (z - 1) (by simp)
      omega
    · refine ⟨z + 1, trivial, fun he => ?_⟩
      have := (List.pairwise_cons.1 (List.pairwise_append.1 ((h1 _).1 (he.trans ((h1 _).2 hs)))).2.1).1 z hz
      omega
  · subst e
    rcases other hl with ⟨z, hz⟩ | ⟨z, hz⟩
    · refine ⟨z + 1, trivial, fun he => ?_⟩
      have := (List.pairwise_append.1 ((h2 _).1 (he.trans ((h2 _).2 hs)))).2.2 z hz (z + 1) (by simp)
      omega
    · refine ⟨z - 1, trivial, fun he => ?_⟩
      have := (List.pairwise_cons.1 (List.pairwise_append.1 ((h2 _).1 (he.trans ((h2 _).2 hs)))).2.1).1 z hz
      omega
  · refine ⟨x + 1, trivial, fun he => ?_⟩
    have hxs : ∀ zs : List Int, EqSeq zs zs := fun zs => by
      induction zs with
      | nil => exact .nil
      | cons z zs ih => exact .cons (by simp [GoEq.eq]) ih
    obtain ⟨b, hb, hb'⟩ := C65_equal xs xs
    have h0 := (C66_compare_zero_iff_equal xs xs).2 (by rw [hb, hb'.2 (hxs xs)])
    obtain ⟨b2, hb2, hb2'⟩ := C65_equal (l ++ (x + 1) :: r) xs
    have h3 := (C66_compare_zero_iff_equal (l ++ (x + 1) :: r) xs).1 (he.trans h0)
    rw [hb2] at h3
    injection h3 with h3
    have := eqSeq_int (hb2'.1 h3)
    rw [e, List.append_cancel_left_eq, List.cons.injEq] at this
    omega

/-- C191: the library looks at each element once and in order: `Sum`, `Count` and `CountIf` at all of them, `Find`, `Index`, `FindIf`, `AnyOf`, `NoneOf` and `AllOf` at the first `k`, where
`k` is `n` unless they stop early. -/
theorem C191_library (a : List T) (p : T → Bool) :
    (∀ [GoEq T] (x : T), (∃ t, Looks (countLooks a x) (.ret (count a x)) t ∧ readsOf t = (List.range a.length).map .a) ∧
      ∃ k, k ≤ a.length ∧ (∃ t, Looks (findLooks a x) (.ret (find a x)) t ∧ readsOf t = (List.range k).map .a) ∧ ∃ t, Looks (indexLooks a x) (.ret (index a x)) t ∧ readsOf t = (List.range k).map .a) ∧
    (∃ t, Looks (countIfLooks a p) (.ret (countIf a p)) t ∧ readsOf t = (List.range a.length).map .a) ∧
    (∃ k, k ≤ a.length ∧ (∃ t, Looks (findIfLooks a p) (.ret (findIf a p)) t ∧ readsOf t = (List.range k).map .a) ∧
      (∃ t, Looks (anyOfLooks a p) (.ret (anyOf a p)) t ∧ readsOf t = (List.range k).map .a) ∧ ∃ t, Looks (noneOfLooks a p) (.ret (noneOf a p)) t ∧ readsOf t = (List.range k).map .a) ∧
    (∃ k, k ≤ a.length ∧ ∃ t, Looks (allOfLooks a p) (.ret (allOf a p)) t ∧ readsOf t = (List.range k).map .a) ∧
    ∀ (pf : Platform) (N : NType) (b : List N.kind.Val), ∃ t, Looks (sumLooks pf N b) (.ret (sum pf N b)) t ∧ readsOf t = (List.range b.length).map .a := by
  obtain ⟨l1, l2⟩ := C168_lookup a
  obtain ⟨c1, c2, c3⟩ := C168_compute a
  refine ⟨fun x => ⟨⟨_, c1 x, visit_reads _ (fun _ _ => rfl) _ _ (Nat.le_refl _)⟩, ?_⟩, ⟨_, c2 p, visit_reads _ (fun _ _ => rfl) _ _ (Nat.le_refl _)⟩, ?_, ?_, fun pf N b => ⟨_, (c3 pf N N b).2.1, ?_⟩⟩
  · obtain ⟨k, hk, e1, e2⟩ := l1 x
    exact ⟨k, hk.1, ⟨_, e1, visit_reads _ (fun _ _ => rfl) _ _ hk.1⟩, _, e2, visit_reads _ (fun _ _ => rfl) _ _ hk.1⟩
  · obtain ⟨⟨k, hk, e1, e2, e3⟩, -⟩ := l2 p
    exact ⟨k, hk.1, ⟨_, e1, visit_reads _ (fun _ _ => rfl) _ _ hk.1⟩, ⟨_, e2, visit_reads _ (fun _ _ => rfl) _ _ hk.1⟩, _, e3, visit_reads _ (fun _ _ => rfl) _ _ hk.1⟩
  · obtain ⟨-, k, hk, e1⟩ := l2 p
    exact ⟨k, hk.1, _, e1, visit_reads _ (fun _ _ => rfl) _ _ hk.1⟩
  · unfold readsOf
    rw [List.filter_eq_self]
    intro x hx
    obtain ⟨i, -, rfl⟩ := List.mem_map.1 hx
    rfl

/-- A program that finds out whether all of two numbers are even, so that `C191_conditions` speaks of something: it looks at the second only if the first is even. -/
example : (ReadProg.read 0 fun x => if x % 2 = 0 then .read 1 fun y => .done (y % 2 == 0) else .done false : ReadProg Int Bool).Computes 2 (fun _ => True) (fun a => allOf a fun x => x % 2 == 0) := by
  intro xs hl _
  match xs, hl with
  | [x, y], _ =>
    by_cases h1 : x % 2 = 0
    · exact ⟨[0, 1], by cases h2 : (y % 2 == 0) <;> simp [ReadProg.run, allOf, h1, h2]⟩
    · exact ⟨[0], by simp [ReadProg.run, allOf, h1]⟩

end Stl4go
