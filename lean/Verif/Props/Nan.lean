import Verif.Proofs.Nan
import Verif.Props.Transform
import Verif.Props.Lookup
import Verif.Props.Compare
import Verif.Props.BinarySearch
import Verif.Props.SkipListBorder
/-!
# C177: what NaN does

`FloatOrd T` holds for integers and strings, which have no NaN, and for floats (`Flt`). The theorems of other properties that assume `LawfulGoOrd` are about slices without NaN.
-/
namespace Stl4go
variable {T : Type}

section Slices
variable [GoOrd T] [FloatOrd T]

/-- C177: if one of two is NaN, both `Max` and `Min` return the second, also if that is the NaN; `MinMax` swaps them. `OrderedCompare` says they are equal, `==` that they are not. -/
theorem C177_two (a b : T) (h : isNan a = true ∨ isNan b = true) :
    max2 a b = b ∧ min2 a b = b ∧ minMax a b = (b, a) ∧ orderedCompare a b = 0 ∧ GoEq.eq a b = false := by
  have hl := (alikeNan_iff a b).1 (.inr h)
  have he : GoEq.eq a b = false := by
    rcases h with h | h
    · exact (FloatOrd.nan a b h).2.2.1
    · exact (FloatOrd.nan b a h).2.2.2
  simp [max2, min2, minMax, orderedCompare, hl.1, hl.2, he]

/-- C177: `MinN`, `MaxN` and `MinMaxN` return the first element if it is NaN, and else the least and greatest of the elements that are not. -/
theorem C177_many (x : T) (s : List T) :
    (isNan x = true → minN (x :: s) = .ret x ∧ maxN (x :: s) = .ret x ∧ minMaxN (x :: s) = .ret (x, x)) ∧
    (isNan x = false → ∃ m n, minN (x :: s) = .ret m ∧ maxN (x :: s) = .ret n ∧ minMaxN (x :: s) = .ret (m, n) ∧
      m ∈ x :: s ∧ n ∈ x :: s ∧ isNan m = false ∧ isNan n = false ∧ ∀ y ∈ x :: s, GoOrd.lt y m = false ∧ GoOrd.lt n y = false) := by
  have hlen : (x :: s).length ≠ 0 := by simp
  have hmin : minN (x :: s) = minNLoop (x :: s) s.length 1 x := by simp [minN]
  have hmax : maxN (x :: s) = maxNLoop (x :: s) s.length 1 x := by simp [maxN]
  have hmm : minMaxN (x :: s) = minMaxNLoop (x :: s) s.length 1 x x := by simp [minMaxN]
  have hl : 1 + s.length = (x :: s).length := by simp; omega
  constructor
  · intro hx
    have h1 := minNLoop_nan (x :: s) x hx s.length 1 hl
    have h2 := maxNLoop_nan (x :: s) x hx s.length 1 hl
    rw [hmin, hmax, hmm]
    exact ⟨h1, h2, minMaxNLoop_spec _ _ _ _ _ hl h1 h2⟩
  · intro hx
    obtain ⟨m, a1, a2, a3, a4⟩ := minNLoop_num (x :: s) s.length 1 x hl (by simp) hx (fun j hj h => by
      obtain rfl : j = 0 := by omega
      exact FloatOrd.irrefl _)
    obtain ⟨n, b1, b2, b3, b4⟩ := maxNLoop_num (x :: s) s.length 1 x hl (by simp) hx (fun j hj h => by
      obtain rfl : j = 0 := by omega
      exact FloatOrd.irrefl _)
    refine ⟨m, n, hmin.trans a1, hmax.trans b1, hmm.trans (minMaxNLoop_spec _ _ _ _ _ hl a1 b1), a2, b2, a3, b3, fun y hy => ?_⟩
    obtain ⟨j, hj, rfl⟩ := List.getElem_of_mem hy
    exact ⟨a4 j hj, b4 j hj⟩

/-- C177: `Compare` goes on after a pair with a NaN as if they were equal. -/
theorem C177_compare (a b : List T) : ∃ n, AlikeUpTo a b n ∧
    ((n = a.length ∧ n = b.length ∧ compare a b = .ret 0) ∨
     (((n = a.length ∧ n < b.length) ∨ ∃ (hn : n < a.length) (hb : n < b.length), GoOrd.lt a[n] b[n] = true) ∧ compare a b = .ret (-1)) ∨
     (((n < a.length ∧ n = b.length) ∨ ∃ (hn : n < a.length) (hb : n < b.length), GoOrd.lt b[n] a[n] = true) ∧ compare a b = .ret 1)) := by
  obtain ⟨n, h1, h2, h3, h4⟩ := compareLoop_stop a.length b a 0 (by omega) (by omega)
  simp only [Nat.zero_add] at h2 h3 h4
  refine ⟨n, ⟨h1, h2, fun i ha hb hi => (alikeNan_iff _ _).2 (h3 i ha hb hi)⟩, ?_⟩
  rcases h4 with h4 | h4 | ⟨h4 | ⟨g1, g2, _, g3⟩, g4⟩
  · exact .inl h4
  · exact .inr (.inl h4)
  · exact .inr (.inr ⟨.inl h4, g4⟩)
  · exact .inr (.inr ⟨.inr ⟨g1, g2, g3⟩, g4⟩)

/-- C177: so `Compare` returns 0 exactly for slices of the same length in which every pair is equal or has a NaN, -/
theorem C177_compare_zero (a b : List T) :
    compare a b = .ret 0 ↔ a.length = b.length ∧ ∀ i (ha : i < a.length) (hb : i < b.length), AlikeNan a[i] b[i] := by
  obtain ⟨n, ⟨h1, h2, h3⟩, h4⟩ := C177_compare a b
  rcases h4 with ⟨e1, e2, e⟩ | ⟨h, e⟩ | ⟨h, e⟩
  · refine ⟨fun _ => ⟨by omega, fun i ha hb => h3 i ha hb (by omega)⟩, fun _ => e⟩
  all_goals
    rw [e]
    refine ⟨fun h => (by cases h), fun ⟨hl, ha⟩ => ?_⟩
    exfalso
    rcases h with h | ⟨g1, g2, g3⟩
    · omega
    · have := (alikeNan_iff _ _).1 (ha n g1 g2)
      simp [this.1, this.2] at g3

/-- and swapping the slices still changes the sign. -/
theorem C177_compare_swap (a b : List T) (r : Int) (h : compare a b = .ret r) : compare b a = .ret (-r) := by
  obtain ⟨n, ⟨h1, h2, h3⟩, h4⟩ := C177_compare a b
  obtain ⟨n', ⟨h1', h2', h3'⟩, h4'⟩ := C177_compare b a
  -- both stop at the same place
  have stop : ∀ (a b : List T) (n n' : Nat), n < n' → n' ≤ a.length → n' ≤ b.length → n ≤ a.length → n ≤ b.length →
      (∀ i (ha : i < a.length) (hb : i < b.length), i < n' → AlikeNan a[i] b[i]) →
      (n = a.length ∨ n = b.length ∨ ∃ (hn : n < a.length) (hb : n < b.length), GoOrd.lt a[n] b[n] = true ∨ GoOrd.lt b[n] a[n] = true) → False := by
    intro a b n n' hlt ha' hb' ha hb hal hs
    rcases hs with hs | hs | ⟨g1, g2, g3⟩
    · omega
    · omega
    · have := (alikeNan_iff _ _).1 (hal n g1 g2 hlt)
      rcases g3 with g3 | g3
      · rw [this.1] at g3; exact nomatch g3
      · rw [this.2] at g3; exact nomatch g3
  have e : n = n' := by
    rcases Nat.lt_trichotomy n n' with hlt | heq | hgt
    · refine (stop b a n n' hlt (by omega) (by omega) (by omega) (by omega) h3' ?_).elim
      rcases h4 with h4 | ⟨h4 | ⟨g1, g2, g3⟩, _⟩ | ⟨h4 | ⟨g1, g2, g3⟩, _⟩
      · exact .inr (.inl h4.1)
      · exact .inr (.inl h4.1)
      · exact .inr (.inr ⟨g2, g1, .inr g3⟩)
      · exact .inl h4.2
      · exact .inr (.inr ⟨g2, g1, .inl g3⟩)
    · exact heq
    · refine (stop a b n' n hgt (by omega) (by omega) (by omega) (by omega) h3 ?_).elim
      rcases h4' with h4 | ⟨h4 | ⟨g1, g2, g3⟩, _⟩ | ⟨h4 | ⟨g1, g2, g3⟩, _⟩
      · exact .inr (.inl h4.1)
      · exact .inr (.inl h4.1)
      · exact .inr (.inr ⟨g2, g1, .inr g3⟩)
      · exact .inl h4.2
      · exact .inr (.inr ⟨g2, g1, .inl g3⟩)
  subst e
  rcases h4 with ⟨e1, e2, e⟩ | ⟨g, e⟩ | ⟨g, e⟩ <;> rw [e] at h <;> cases h <;> rcases h4' with ⟨e1', e2', e'⟩ | ⟨g', e'⟩ | ⟨g', e'⟩
  · exact e'
  · rcases g' with g' | ⟨g1, g2, _⟩ <;> omega
  · rcases g' with g' | ⟨g1, g2, _⟩ <;> omega
  · rcases g with g | ⟨g1, g2, _⟩ <;> omega
  · rcases g with g | ⟨g1, g2, g3⟩ <;> rcases g' with g' | ⟨g1', g2', g3'⟩
    · omega
    · omega
    · omega
    · rw [FloatOrd.asymm g3] at g3'; exact nomatch g3'
  · exact e'
  · rcases g with g | ⟨g1, g2, _⟩ <;> omega
  · exact e'
  · rcases g with g | ⟨g1, g2, g3⟩ <;> rcases g' with g' | ⟨g1', g2', g3'⟩
    · omega
    · omega
    · omega
    · rw [FloatOrd.asymm g3] at g3'; exact nomatch g3'

/-- C177: nothing is equal to a NaN, so `Find`, `Index` and `Count` do not find one, `BinarySearch` neither; `Equal` is false for slices with a NaN, even of a slice and itself. -/
theorem C177_lookup (a : List T) (x : T) (hx : isNan x = true) :
    find a x = (-1, false) ∧ index a x = -1 ∧ count a x = 0 ∧ binarySearch a x = .ret (-1, false) ∧
    (x ∈ a → ∀ b, equal a b = .ret false ∧ equal b a = .ret false) := by
  have hne : ∀ y : T, GoEq.eq y x = false := fun y => (FloatOrd.nan x y hx).2.2.2
  have hne' : ∀ y : T, GoEq.eq x y = false := fun y => (FloatOrd.nan x y hx).2.2.1
  refine ⟨?_, ?_, ?_, ?_, ?_⟩
  · rcases C69_find a x with ⟨i, hi, _, h, _⟩ | h
    · rw [hne] at h; exact nomatch h
    · exact h.1
  · rcases C69_index a x with ⟨i, hi, _, h, _⟩ | h
    · rw [hne] at h; exact nomatch h
    · exact h.1
  · rw [C70_count]
    simp [hne]
  · obtain ⟨r, h1, h2, _⟩ := lowerBoundFunc_spec (less := GoOrd.lt) a x
    simp only [binarySearch, lowerBound_eq, h1, Outcome.ret_bind]
    by_cases h : r < a.length
    · simp only [if_pos h, idx_of_lt h, Outcome.ret_bind, hne]
      rfl
    · rw [if_neg h]; rfl
  · intro hm b
    have no1 : ∀ (a b : List T), EqSeq a b → x ∉ a ∧ x ∉ b := by
      intro a b h
      induction h with
      | nil => simp
      | cons hxy _ ih =>
        refine ⟨fun h => ?_, fun h => ?_⟩
        · rcases List.mem_cons.1 h with rfl | h
          · rw [hne'] at hxy; exact nomatch hxy
          · exact ih.1 h
        · rcases List.mem_cons.1 h with rfl | h
          · rw [hne] at hxy; exact nomatch hxy
          · exact ih.2 h
    obtain ⟨r, h1, h2⟩ := C65_equal a b
    obtain ⟨r', h1', h2'⟩ := C65_equal b a
    cases r with
    | true => exact absurd hm (no1 _ _ (h2.1 rfl)).1
    | false =>
      cases r' with
      | true => exact absurd hm (no1 _ _ (h2'.1 rfl)).2
      | false => exact ⟨h1, h1'⟩

/-- C177: searching for a NaN in any slice, `LowerBound` is 0 and `UpperBound` the length. `BinarySearchFunc` with `Less` claims to have found it at 0. -/
theorem C177_bounds (a : List T) (x : T) (hx : isNan x = true) :
    lowerBound a x = .ret 0 ∧ upperBound a x = .ret a.length ∧ (a ≠ [] → binarySearchFunc a x lessF = .ret (0, true)) := by
  have hl : ∀ y : T, GoOrd.lt y x = false := fun y => (FloatOrd.nan x y hx).2.1
  have hr : ∀ y : T, GoOrd.lt x y = false := fun y => (FloatOrd.nan x y hx).1
  have low : lowerBoundFunc a x GoOrd.lt = .ret 0 := by
    obtain ⟨r, h1, h2, h3⟩ := bs_spec (fun y => GoOrd.lt y x) a
    have h4 := (h3 (fun i j _ _ _ h => by rw [hl] at h; exact nomatch h)).1
    rw [lowerBoundFunc, lowerBoundFuncLoop_eq, h1]
    by_cases h0 : r = 0
    · rw [h0]
    · have := h4 0 (by omega) (by omega)
      rw [hl] at this; exact nomatch this
  refine ⟨by rw [lowerBound_eq, low], ?_, fun ha => ?_⟩
  · obtain ⟨r, h1, h2, h3⟩ := bs_spec (fun y => !GoOrd.lt x y) a
    have h4 := (h3 (fun i j _ _ _ _ => by rw [hr]; rfl)).2
    rw [upperBound_eq, upperBoundFunc, upperBoundFuncLoop_eq, h1]
    by_cases h0 : r = a.length
    · rw [h0]
    · have := h4 r (by omega) (Nat.le_refl _)
      rw [hr] at this; exact nomatch this
  · have hp : 0 < a.length := List.length_pos_iff.2 ha
    have low' : lowerBoundFunc a x lessF = .ret 0 := low
    simp only [binarySearchFunc, low', Outcome.ret_bind, if_pos hp, idx_of_lt hp, lessF, hr]
    rfl

/-- C177: `LowerBound` and `BinarySearch` are right for a slice whose NaNs are all at its end, -/
theorem C177_nan_last (s nans : List T) (hs : Ascends s) (hn : ∀ x ∈ nans, isNan x = true) (v : T) (hv : isNan v = false) :
    ∃ r, lowerBound (s ++ nans) v = .ret r ∧ r ≤ s.length ∧ (∀ i (hi : i < s.length), i < r → GoOrd.lt s[i] v = true) ∧
      (∀ i (hi : i < s.length), r ≤ i → GoOrd.lt s[i] v = false) ∧
      ((binarySearch (s ++ nans) v = .ret ((r : Int), true) ∧ ∃ x ∈ s, GoEq.eq x v = true) ∨
       (binarySearch (s ++ nans) v = .ret (-1, false) ∧ ∀ x ∈ s, GoEq.eq x v = false)) := by
  have hnan : ∀ x ∈ nans, GoOrd.lt x v = false := fun x hx => (FloatOrd.nan x v (hn x hx)).1
  have hmono : ∀ i j (hi : i < (s ++ nans).length) (hj : j < (s ++ nans).length), i < j →
      GoOrd.lt (s ++ nans)[j] v = true → GoOrd.lt (s ++ nans)[i] v = true := by
    intro i j hi hj hij h
    by_cases hjs : j < s.length
    · rw [List.getElem_append_left hjs] at h
      rw [List.getElem_append_left (by omega)]
      have := List.pairwise_iff_getElem.1 hs.1 i j (by omega) hjs hij
      rcases FloatOrd.between _ s[i] _ (hs.2 _ (List.getElem_mem _)) h with g | g
      · rw [this] at g; exact nomatch g
      · exact g
    · rw [List.getElem_append_right (by omega), hnan _ (List.getElem_mem _)] at h
      exact nomatch h
  obtain ⟨r, h1, h2, h3⟩ := bs_spec (fun y => GoOrd.lt y v) (s ++ nans)
  obtain ⟨h4, h5⟩ := h3 hmono
  have hr : r ≤ s.length := by
    apply Nat.le_of_not_lt
    intro hlt
    have := h4 s.length (by simp at h2 ⊢; omega) hlt
    rw [List.getElem_append_right (Nat.le_refl _), hnan _ (List.getElem_mem _)] at this
    exact nomatch this
  have hlow : lowerBound (s ++ nans) v = .ret r := by rw [lowerBound_eq, lowerBoundFunc, lowerBoundFuncLoop_eq, h1]
  have lo : ∀ i (hi : i < s.length), i < r → GoOrd.lt s[i] v = true := fun i hi hir => by
    have := h4 i (by simp; omega) hir
    rwa [List.getElem_append_left hi] at this
  have up : ∀ i (hi : i < s.length), r ≤ i → GoOrd.lt s[i] v = false := fun i hi hir => by
    have := h5 i (by simp; omega) hir
    rwa [List.getElem_append_left hi] at this
  refine ⟨r, hlow, hr, lo, up, ?_⟩
  have nl : ∀ i (hi : i < s.length), i < r → GoEq.eq s[i] v = false := by
    intro i hi hir
    cases he : GoEq.eq s[i] v with
    | false => rfl
    | true =>
      have := ((FloatOrd.eq_iff _ _ (hs.2 _ (List.getElem_mem hi)) hv).1 he).1
      rw [lo i hi hir] at this; exact nomatch this
  simp only [binarySearch, hlow, Outcome.ret_bind]
  by_cases hrl : r < s.length
  · have hrl' : r < (s ++ nans).length := by simp; omega
    simp only [if_pos hrl', idx_of_lt hrl', Outcome.ret_bind, List.getElem_append_left hrl]
    by_cases he : GoEq.eq s[r] v = true
    · rw [if_pos he]
      exact .inl ⟨rfl, s[r], List.getElem_mem hrl, he⟩
    · rw [if_neg he]
      refine .inr ⟨rfl, fun x hx => ?_⟩
      obtain ⟨i, hi, rfl⟩ := List.getElem_of_mem hx
      by_cases hir : i < r
      · exact nl i hi hir
      · cases hx : GoEq.eq s[i] v with
        | false => rfl
        | true =>
          -- then s[r] lies between
          have hvr : GoOrd.lt v s[r] = true := by
            cases g : GoOrd.lt v s[r] with
            | true => rfl
            | false => exact absurd ((FloatOrd.eq_iff _ _ (hs.2 _ (List.getElem_mem hrl)) hv).2 ⟨up r hrl (Nat.le_refl _), g⟩) he
          have hge := ((FloatOrd.eq_iff _ _ (hs.2 _ (List.getElem_mem hi)) hv).1 hx)
          have hne : r ≠ i := fun e => by subst e; exact he hx
          have := List.pairwise_iff_getElem.1 hs.1 r i hrl hi (by omega)
          rcases FloatOrd.between _ s[i] _ (hs.2 _ (List.getElem_mem hi)) hvr with g | g
          · rw [hge.2] at g; exact nomatch g
          · rw [this] at g; exact nomatch g
  · have hall : ∀ x ∈ s, GoEq.eq x v = false := fun x hx => by
      obtain ⟨i, hi, rfl⟩ := List.getElem_of_mem hx
      exact nl i hi (by omega)
    right
    refine ⟨?_, hall⟩
    by_cases h : r < (s ++ nans).length
    · simp only [if_pos h, idx_of_lt h, Outcome.ret_bind, List.getElem_append_right (Nat.le_of_not_lt hrl)]
      rw [(FloatOrd.nan _ v (hn _ (List.getElem_mem _))).2.2.1]
      rfl
    · rw [if_neg h]; rfl

/-- and `UpperBound` is right for one whose NaNs are all at its start. -/
theorem C177_nan_first (nans s : List T) (hs : Ascends s) (hn : ∀ x ∈ nans, isNan x = true) (v : T) :
    ∃ r, upperBound (nans ++ s) v = .ret (nans.length + r) ∧ r ≤ s.length ∧ (∀ i (hi : i < s.length), i < r → GoOrd.lt v s[i] = false) ∧
      ∀ i (hi : i < s.length), r ≤ i → GoOrd.lt v s[i] = true := by
  have hnan : ∀ x ∈ nans, GoOrd.lt v x = false := fun x hx => (FloatOrd.nan x v (hn x hx)).2.1
  obtain ⟨r, h1, h2, h3⟩ := bs_spec (fun y => !GoOrd.lt v y) (nans ++ s)
  obtain ⟨h4, h5⟩ := h3 (by
    intro i j hi hj hij h
    have h : (!GoOrd.lt v (nans ++ s)[j]) = true := h
    show (!GoOrd.lt v (nans ++ s)[i]) = true
    by_cases hin : i < nans.length
    · rw [List.getElem_append_left hin, hnan _ (List.getElem_mem _)]; rfl
    · rw [List.getElem_append_right (by omega)] at h ⊢
      have hjl : j - nans.length < s.length := by simp at hj; omega
      have hil : i - nans.length < s.length := by simp at hi; omega
      have := List.pairwise_iff_getElem.1 hs.1 (i - nans.length) (j - nans.length) hil hjl (by omega)
      cases g : GoOrd.lt v s[i - nans.length] with
      | false => rfl
      | true =>
        rcases FloatOrd.between _ s[j - nans.length] _ (hs.2 _ (List.getElem_mem hjl)) g with g' | g'
        · rw [g'] at h; exact nomatch h
        · rw [this] at g'; exact nomatch g')
  have hr : nans.length ≤ r := by
    apply Nat.le_of_not_lt
    intro hlt
    have hrl : r < (nans ++ s).length := by simp; omega
    have : (!GoOrd.lt v (nans ++ s)[r]) = false := h5 r hrl (Nat.le_refl _)
    rw [List.getElem_append_left hlt, hnan _ (List.getElem_mem _)] at this
    exact nomatch this
  refine ⟨r - nans.length, ?_, by simp at h2; omega, fun i hi hir => ?_, fun i hi hir => ?_⟩
  · rw [upperBound_eq, upperBoundFunc, upperBoundFuncLoop_eq, h1]
    congr 1; omega
  · have hil : nans.length + i < (nans ++ s).length := by simp; omega
    have : (!GoOrd.lt v (nans ++ s)[nans.length + i]) = true := h4 (nans.length + i) hil (by omega)
    rw [List.getElem_append_right (by omega)] at this
    simpa using this
  · have hil : nans.length + i < (nans ++ s).length := by simp; omega
    have : (!GoOrd.lt v (nans ++ s)[nans.length + i]) = false := h5 (nans.length + i) hil (by omega)
    rw [List.getElem_append_right (by omega)] at this
    simpa using this

/-- C177: `Remove` and `Replace` of a NaN change nothing, and `Unique` keeps every NaN. -/
theorem C177_transform (a : Sl) (m : Mem T) (ha : a.WF m) :
    (∀ x, isNan x = true → ∃ r m', remove a x m = .ok r m' ∧ r.read m' = a.read m) ∧
    (∀ x new, isNan x = true → ∃ m', replace a x new m = .ok () m' ∧ a.read m' = a.read m) ∧
    ∃ r m', unique a m = .ok r m' ∧ (r.read m').filter isNan = (a.read m).filter isNan := by
  refine ⟨fun x hx => ?_, fun x new hx => ?_, ?_⟩
  · obtain ⟨r, m', e, _, _, h, _⟩ := C56_remove a x m ha
    refine ⟨r, m', e, h.trans (List.filter_eq_self.2 (fun y _ => ?_))⟩
    rw [(FloatOrd.nan x y hx).2.2.2]; rfl
  · obtain ⟨m', e, ho, h⟩ := C54_replace a x new m
    refine ⟨m', e, ?_⟩
    apply List.ext_getElem?
    intro i
    by_cases hi : i < (a.read m).length
    · rw [h i hi, (FloatOrd.nan x _ hx).2.2.2, List.getElem?_eq_getElem hi]; rfl
    · rw [List.getElem?_eq_none (by simpa [Sl.read] using hi), List.getElem?_eq_none (by simpa using hi)]
  · have hE : PartialEq T := by
      refine ⟨fun x y h => ?_, fun x y z h1 h2 => ?_⟩
      · have hx : isNan x = false := by
          cases hx : isNan x with
          | false => rfl
          | true => rw [(FloatOrd.nan x y hx).2.2.1] at h; exact nomatch h
        have hy : isNan y = false := by
          cases hy : isNan y with
          | false => rfl
          | true => rw [(FloatOrd.nan y x hy).2.2.2] at h; exact nomatch h
        exact (FloatOrd.eq_iff y x hy hx).2 ((FloatOrd.eq_iff x y hx hy).1 h).symm
      · have hx : isNan x = false := by
          cases hx : isNan x with
          | false => rfl
          | true => rw [(FloatOrd.nan x y hx).2.2.1] at h1; exact nomatch h1
        have hy : isNan y = false := by
          cases hy : isNan y with
          | false => rfl
          | true => rw [(FloatOrd.nan y z hy).2.2.1] at h2; exact nomatch h2
        have hz : isNan z = false := by
          cases hz : isNan z with
          | false => rfl
          | true => rw [(FloatOrd.nan z y hz).2.2.2] at h2; exact nomatch h2
        obtain ⟨p1, p2⟩ := (FloatOrd.eq_iff x y hx hy).1 h1
        obtain ⟨q1, q2⟩ := (FloatOrd.eq_iff y z hy hz).1 h2
        refine (FloatOrd.eq_iff x z hx hz).2 ⟨?_, ?_⟩
        · cases g : GoOrd.lt x z with
          | false => rfl
          | true =>
            rcases FloatOrd.between x y z hy g with g | g
            · rw [p1] at g; exact nomatch g
            · rw [q1] at g; exact nomatch g
        · cases g : GoOrd.lt z x with
          | false => rfl
          | true =>
            rcases FloatOrd.between z y x hy g with g | g
            · rw [q2] at g; exact nomatch g
            · rw [p2] at g; exact nomatch g
    obtain ⟨r, m', e, _, _, h, _⟩ := C55_unique hE a m ha
    refine ⟨r, m', e, ?_⟩
    rw [h]
    have key : ∀ (s : List T) (p : T), (starts p s).filter isNan = s.filter isNan := by
      intro s
      induction s with
      | nil => intro p; rfl
      | cons x s ih =>
        intro p
        rw [starts]
        by_cases hpx : GoEq.eq p x = true
        · have hx : isNan x = false := by
            cases hx : isNan x with
            | false => rfl
            | true => rw [(FloatOrd.nan x p hx).2.2.2] at hpx; exact nomatch hpx
          rw [if_pos hpx, ih, List.filter_cons, hx]; rfl
        · rw [if_neg hpx, List.filter_cons, List.filter_cons, ih]
    cases a.read m with
    | nil => rfl
    | cons x s => rw [collapse, List.filter_cons, List.filter_cons, key]

end Slices

/-! ## Skip lists -/

section SkipLists
variable {K V : Type} {h : List (SLImpl K × Nat × SMOp K V)} {sl : SL K V} {l : List (K × V)}

/-- C177, `NewSkipList`: a NaN is never found and never removed, the bounds of a NaN are the end, and inserting one adds an entry at the end every time. -/
theorem C177_newSkipList (ord : GoOrd K) [FloatOrd K] (hb : SL.BuiltEach h sl) (hl : sl.Holds l) (k : K) (hk : isNan k = true) :
    sl.find (.ordered ord) k = .ret none ∧ sl.fromLower (.ordered ord) k = .ret [] ∧ sl.fromUpper (.ordered ord) k = .ret [] ∧
    (∀ rnd v, ∃ sl', sl.insert (.ordered ord) rnd k v = .ret sl' ∧ sl'.Holds (l ++ [(k, v)])) ∧
    ∃ sl', sl.remove (.ordered ord) k = .ret (sl', false) ∧ sl'.Holds l := by
  have := C175_absent (impl := .ordered ord) hb k l [] (by simpa using hl)
    (fun e _ => by
      show (!(GoEq.eq e.1 k) && !(GoOrd.lt k e.1)) = true
      rw [(FloatOrd.nan k e.1 hk).2.2.2, (FloatOrd.nan k e.1 hk).1]; rfl)
    (fun e he => nomatch he)
  simpa using this

/-- C177, `NewSkipListFunc` with `OrderedCompare`: a NaN passes for a key that is there, whichever the search meets first. `Insert` overwrites its value, and `Remove` takes the first
entry of the list. -/
theorem C177_newSkipListFunc [GoOrd K] [FloatOrd K] (hb : SL.BuiltEach h sl) (k : K) (hk : isNan k = true) (e : K × V) (hl : sl.Holds (e :: l)) :
    (∃ G x S a, e :: l = G ++ x :: S ∧ sl.find (.func orderedCompare) k = .ret (some a) ∧ sl.readPtr a = .ret x.2 ∧
      ∀ rnd v, ∃ sl', sl.insert (.func orderedCompare) rnd k v = .ret sl' ∧ sl'.Holds (G ++ (x.1, v) :: S)) ∧
    ∃ sl', sl.remove (.func orderedCompare) k = .ret (sl', true) ∧ sl'.Holds l := by
  have hc : ∀ y : K, orderedCompare y k = 0 := fun y => (C177_two y k (.inr hk)).2.2.2.1
  have hs : ∀ x ∈ e :: l, (SLImpl.func orderedCompare).same x.1 k = true := fun x _ => by
    show decide (orderedCompare x.1 k = 0) = true
    rw [hc]; rfl
  obtain ⟨⟨E1, x, E2, a, e1, e2, e3, _, _, e4⟩, e5⟩ := C175_present (impl := .func orderedCompare) hb k [] e l [] (by simpa using hl) (fun _ h => nomatch h) hs (fun _ h => nomatch h)
  refine ⟨⟨E1, x, E2, a, e1, e2, e3, ?_⟩, by simpa using e5⟩
  simpa using e4

end SkipLists

/-! ## Examples with floats -/

/-- A float that is a whole number. -/
def flt (n : Int) : Flt := .fin (n * Flt.one)

example : isNan Flt.nan = true ∧ isNan (flt 1) = false ∧ isNan (Flt.inf true) = false := by decide +kernel
example : minN [flt 3, .nan, flt 1] = .ret (flt 1) ∧ minN [.nan, flt 3, flt 1] = .ret Flt.nan ∧ maxN [flt 3, .inf true, .nan, flt 1] = .ret (flt 3) := by decide +kernel

/-- C177: with NaN `Compare` is not transitive, and it says 0 of slices that are not `Equal`. -/
theorem C177_compare_nan : compare [flt 2] [.nan] = .ret 0 ∧ compare [.nan] [flt 1] = .ret 0 ∧ compare [flt 2] [flt 1] = .ret 1 ∧
    compare [flt 2, flt 1] [.nan, flt 3] = .ret (-1) ∧ equal [flt 2] [.nan] = .ret false ∧ equal [Flt.nan] [.nan] = .ret false := by decide +kernel

/-- C177: elsewhere NaNs mislead the searches: 2 is in the first slice, and all of the second but NaNs is greater than 1. -/
theorem C177_hidden : binarySearch [.nan, .nan, flt 2] (flt 2) = .ret (-1, false) ∧ upperBound [flt 2, .nan, .nan] (flt 1) = .ret 3 := by decide +kernel

example : Ascends [flt 1, flt 2, .inf false] := ⟨by decide +kernel, by decide +kernel⟩

end Stl4go
