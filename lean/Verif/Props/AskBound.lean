import Verif.Proofs.AskBound
import Verif.Props.Looks
import Verif.Props.Lookup
/-!
# Property C189: what can be found out with how many comparisons

The programs compare elements of a list at positions they choose, as they like, and need only be right for different integers. The functions are in `/repo/lookup.go`, `/repo/sort.go`
and `/repo/heap.go`.
-/
namespace Stl4go
variable {T α : Type}

/-- C189: who finds the least or the greatest of `n` different integers makes at least `n - 1` comparisons, every time. -/
theorem C189_extremes {p : AskProg Nat} {n : Nat} (h : p.FindsLeast n ∨ p.FindsGreatest n) (xs : List Int) (hl : xs.length = n) (hn : xs.Nodup) :
    ∃ r E, p.run intLess xs = some (r, E) ∧ n ≤ E.length + 1 := by
  rcases h with h | h
  · obtain ⟨r, E, x, e, -, -⟩ := h xs hl hn
    refine ⟨r, E, e, ?_⟩
    by_contra hE
    obtain ⟨f, h2, h3⟩ := AskProg.fooled hn e (by omega)
    obtain ⟨i, hi, hir⟩ := other_class h2 r
    obtain ⟨ys, l1, l2, l3, l4⟩ := h3 (f i)
    obtain ⟨r', E', x', e', hx', hle⟩ := h ys (l1.trans hl) l2
    rw [l3] at e'
    cases e'
    have hi' : ys[i]? = some ys[i] := List.getElem?_eq_getElem (by omega)
    have := l4 i r ys[i] x' rfl (fun e => hir e.symm) hi' hx'
    have := hle ys[i] (List.getElem_mem _)
    omega
  · obtain ⟨r, E, x, e, -, -⟩ := h xs hl hn
    refine ⟨r, E, e, ?_⟩
    by_contra hE
    obtain ⟨f, h2, h3⟩ := AskProg.fooled hn e (by omega)
    obtain ⟨i, hi, hir⟩ := other_class h2 r
    obtain ⟨ys, l1, l2, l3, l4⟩ := h3 (f r)
    obtain ⟨r', E', x', e', hx', hle⟩ := h ys (l1.trans hl) l2
    rw [l3] at e'
    cases e'
    have hi' : ys[i]? = some ys[i] := List.getElem?_eq_getElem (by omega)
    have := l4 r i x' ys[i] rfl hir hx' hi'
    have := hle ys[i] (List.getElem_mem _)
    omega

/-- C189: who tells whether `n` different integers are in ascending order makes at least `n - 1` comparisons whenever they are. -/
theorem C189_sorted {p : AskProg Bool} {n : Nat} (h : p.TestsSorted n) (xs : List Int) (hl : xs.length = n) (hs : xs.Pairwise (· < ·)) :
    ∃ E, p.run intLess xs = some (true, E) ∧ n ≤ E.length + 1 := by
  have hn : xs.Nodup := hs.imp (fun h => Int.ne_of_lt h)
  obtain ⟨b, E, e, hb⟩ := h xs hl hn
  have : b = true := hb.2 hs
  subst this
  refine ⟨E, e, ?_⟩
  by_contra hE
  obtain ⟨f, ⟨i, j, hi, hj, hij⟩, h3⟩ := AskProg.fooled hn e (by omega)
  have key : ∀ i j, i < j → j < xs.length → f i ≠ f j → False := by
    intro i j hij hj hf
    obtain ⟨ys, l1, l2, l3, l4⟩ := h3 (f j)
    obtain ⟨b', E', e', hb'⟩ := h ys (l1.trans hl) l2
    rw [l3] at e'
    cases e'
    have hp := List.pairwise_iff_getElem.1 (hb'.1 rfl) i j (by omega) (by omega) hij
    have := l4 j i ys[j] ys[i] rfl hf (List.getElem?_eq_getElem (by omega)) (List.getElem?_eq_getElem (by omega))
    omega
  rcases Nat.lt_trichotomy i j with h | h | h
  · exact key i j h hj hij
  · subst h; exact hij rfl
  · exact key j i h hi (fun e => hij e.symm)

/-- C189: who tells whether `n` different integers are a heap makes at least `n - 1` comparisons whenever they are. -/
theorem C189_heap {p : AskProg Bool} {n : Nat} (h : p.TestsHeap n) (xs : List Int) (hl : xs.length = n) (hn : xs.Nodup) (hs : IsHeap intLess xs) :
    ∃ E, p.run intLess xs = some (true, E) ∧ n ≤ E.length + 1 := by
  obtain ⟨b, E, e, hb⟩ := h xs hl hn
  have : b = true := hb.2 hs
  subst this
  refine ⟨E, e, ?_⟩
  by_contra hE
  obtain ⟨f, h2, h3⟩ := AskProg.fooled hn e (by omega)
  obtain ⟨c, c0, hc, hcf⟩ := tree_class h2
  obtain ⟨ys, l1, l2, l3, l4⟩ := h3 (f c)
  obtain ⟨b', E', e', hb'⟩ := h ys (l1.trans hl) l2
  rw [l3] at e'
  cases e'
  have hh := hb'.1 rfl c (by omega) c0
  have := l4 c ((c - 1) / 2) ys[c] (ys[(c - 1) / 2]'(by omega)) rfl (fun e => hcf e.symm) (List.getElem?_eq_getElem (by omega)) (List.getElem?_eq_getElem (by omega))
  simp only [intLess, decide_eq_false_iff_not] at hh
  omega

/-- C189: there are such programs for every `n`. -/
theorem C189_possible (n : Nat) (h : 0 < n) :
    (bestFrom true (n - 1) 1 0).FindsLeast n ∧ (bestFrom false (n - 1) 1 0).FindsGreatest n ∧ (sortedFrom (n - 1) 0).TestsSorted n ∧ (heapFrom (n - 1) 1).TestsHeap n := by
  have gm : ∀ (xs : List Int) (y : Int), y ∈ xs → ∃ i, i < xs.length ∧ xs.getD i 0 = y := fun xs y hy => by
    obtain ⟨i, hi, rfl⟩ := List.mem_iff_getElem.1 hy
    exact ⟨i, hi, by simp [hi]⟩
  refine ⟨fun xs hl _ => ?_, fun xs hl _ => ?_, fun xs hl _ => ?_, fun xs hl _ => ?_⟩
  · obtain ⟨r, E, e, a1, a2, -⟩ := bestFrom_run xs true (n - 1) 1 0 (by omega) (by omega) (fun i hi => by
      have : i = 0 := by omega
      subst this; simp)
    refine ⟨r, E, xs.getD r 0, e, by simp [a1], fun y hy => ?_⟩
    obtain ⟨i, hi, rfl⟩ := gm xs y hy
    exact a2 i hi
  · obtain ⟨r, E, e, a1, a2, -⟩ := bestFrom_run xs false (n - 1) 1 0 (by omega) (by omega) (fun i hi => by
      have : i = 0 := by omega
      subst this; simp)
    refine ⟨r, E, xs.getD r 0, e, by simp [a1], fun y hy => ?_⟩
    obtain ⟨i, hi, rfl⟩ := gm xs y hy
    exact a2 i hi
  · obtain ⟨b, E, e, hb⟩ := sortedFrom_run xs (n - 1) 0 (by omega) (fun i hi => by omega)
    refine ⟨b, E, e, hb.trans ⟨ascending_of_next xs, fun hp i hi => ?_⟩⟩
    have := List.pairwise_iff_getElem.1 hp i (i + 1) (by omega) hi (by omega)
    simpa [hi, show i < xs.length by omega] using this
  · obtain ⟨b, E, e, hb⟩ := heapFrom_run xs (n - 1) 1 (by omega) (by omega) (fun i h1 hi => by omega)
    refine ⟨b, E, e, hb.trans ⟨fun hp i hi h0 => ?_, fun hp i h0 hi => ?_⟩⟩
    · have := hp i h0 hi
      have h2 : (i - 1) / 2 < xs.length := by omega
      simpa [intLess, hi, h2] using this
    · have := hp i hi h0
      have h2 : (i - 1) / 2 < xs.length := by omega
      simpa [intLess, hi, h2] using this

/-- C189: the library does not make more: `MinN` and `MaxN` make `n - 1` comparisons, `IsSorted`, `IsDescSorted` and `IsHeapFunc` at most so many. -/
theorem C189_library [GoOrd T] (a : List T) (h : a ≠ []) :
    (∃ t, Looks (minNLooks a) (minN a) t ∧ comparisons t = a.length - 1) ∧ (∃ t, Looks (maxNLooks a) (maxN a) t ∧ comparisons t = a.length - 1) ∧
    (∃ t, Looks (isSortedLooks a) (isSorted a) t ∧ comparisons t ≤ a.length - 1) ∧ (∃ t, Looks (isDescSortedLooks a) (isDescSorted a) t ∧ comparisons t ≤ a.length - 1) ∧
    ∀ (l : T → T → Bool) (b : Sl) (s : HS T Nat), ∃ r c, isHeapFuncA b (countedLess l) s = .ok r { s with st := s.st + c } ∧ c ≤ b.len - 1 := by
  obtain ⟨⟨t1, e1, h1⟩, ⟨t2, e2, h2⟩, -⟩ := C168_extremes a h
  obtain ⟨⟨k3, -, e3⟩, ⟨k4, -, e4⟩⟩ := C168_sorted a h
  have hlen : (neighbours a).length = a.length - 1 := by simp [neighbours]
  refine ⟨⟨_, e2, ?_⟩, ⟨_, e1, ?_⟩, ⟨_, e3, ?_⟩, ⟨_, e4, ?_⟩, fun l b s => ?_⟩
  · have := h2.tests
    simpa [comparisons, Look.isRead] using this
  · have := h1.tests
    simpa [comparisons, Look.isRead] using this
  · have := visit_comparisons (T := T) (fun i (_ : T × T) => .a (i + 1)) (fun _ v => .lt v.2 v.1) (fun _ _ => rfl) (fun _ _ => rfl) (neighbours a) k3
    rw [hlen] at this
    simpa [comparisons, Look.isRead] using this
  · have := visit_comparisons (T := T) (fun i (_ : T × T) => .a (i + 1)) (fun _ v => .lt v.1 v.2) (fun _ _ => rfl) (fun _ _ => rfl) (neighbours a) k4
    rw [hlen] at this
    simpa [comparisons, Look.isRead] using this
  · by_cases h0 : b.len = 0
    · refine ⟨true, 0, ?_, Nat.zero_le _⟩
      unfold isHeapFuncA
      rw [h0]; rfl
    · exact isHeapFuncLoopA_calls l (b.len - 1) 1 0 s (by omega) (by omega)

/-- C189: `MinMaxN` makes `2 (n - 1)` comparisons, and needs not: both extremes can be found with `3 ⌊(n-1)/2⌋`, and two more if `n` is even, for all integers, equal ones too.
That is fewer as soon as there are three elements. -/
theorem C189_both (xs : List Int) (h : xs ≠ []) :
    (∃ t, Looks (minMaxNLooks xs) (minMaxN xs) t ∧ comparisons t = 2 * (xs.length - 1)) ∧
    (∃ lo hi x y E, (minMaxFrom (xs.length - 1) 1 0 0).run intLess xs = some ((lo, hi), E) ∧ xs[lo]? = some x ∧ xs[hi]? = some y ∧ (∀ z ∈ xs, x ≤ z ∧ z ≤ y) ∧
      minMaxN xs = .ret (x, y) ∧ E.length = 3 * ((xs.length - 1) / 2) + 2 * ((xs.length - 1) % 2)) ∧
    (3 ≤ xs.length → 3 * ((xs.length - 1) / 2) + 2 * ((xs.length - 1) % 2) < 2 * (xs.length - 1)) := by
  have h0 : 0 < xs.length := List.length_pos_iff.2 h
  refine ⟨?_, ?_, fun h3 => by omega⟩
  · obtain ⟨-, -, ⟨t, e, ht⟩⟩ := C168_extremes xs h
    refine ⟨_, e, ?_⟩
    have := ht.tests
    simpa [comparisons, Look.isRead] using this
  · obtain ⟨⟨lo, hi⟩, E, e, a1, a2, a3, a4⟩ := minMaxFrom_run xs (xs.length - 1) 1 0 0 (by omega) (by omega) (by omega)
      (fun i hi => by have : i = 0 := by omega
                      subst this; omega)
    have g : ∀ i, i < xs.length → xs[i]? = some (xs.getD i 0) := fun i hi => by simp [hi]
    have hall : ∀ z ∈ xs, xs.getD lo 0 ≤ z ∧ z ≤ xs.getD hi 0 := fun z hz => by
      obtain ⟨i, hi', rfl⟩ := List.mem_iff_getElem.1 hz
      have := a3 i hi'
      have e : xs.getD i 0 = xs[i] := by simp [hi']
      rw [e] at this
      exact this
    refine ⟨lo, hi, _, _, E, e, g lo a1, g hi a2, hall, ?_, a4⟩
    obtain ⟨m, k, e1, hm, hk, hmk⟩ := C68_minMaxN xs h
    have m1 := hmk _ (List.mem_of_getElem? (g lo a1))
    have m2 := hmk _ (List.mem_of_getElem? (g hi a2))
    have m3 := hall m hm
    have m4 := hall k hk
    simp only [GoOrd.lt, decide_eq_false_iff_not] at m1 m2
    rw [e1, show m = xs.getD lo 0 by omega, show k = xs.getD hi 0 by omega]

/-- Five elements: `MinMaxN` makes 8 comparisons, the other way 6. -/
example : (match minMaxNLooks [3, 1, 4, 1, 5] ([] : List (Look Int)) with
    | .ok r t => some (r, comparisons t)
    | _ => none) = some ((1, 5), 8) ∧
    ((minMaxFrom 4 1 0 0).run intLess [3, 1, 4, 1, 5]).map (fun q => (q.1, q.2.length)) = some ((1, 4), 6) := by decide +kernel

end Stl4go
