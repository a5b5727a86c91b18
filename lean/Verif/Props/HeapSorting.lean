import Verif.Proofs.HeapSorting
import Verif.Props.SortBound
import Verif.Props.HeapMem
/-! # Property C187: sorting with the functions of `heap.go` -/
namespace Stl4go
variable {T τ : Type}

/-- C187: making a heap with the comparison turned round and popping every element does exactly what `SortFunc` does with heap sort for `sort.Sort`, whatever the comparison function answers
and whether it returns, panics or hangs; only the client's slice variable differs. -/
theorem C187_program (less : LessM T τ) (a : Sl) (hc : a.len ≤ a.cap) (s : HS T τ) :
    Res.besides s.heap (heapSortM a less s) = sortFuncA heapSortProg a (fun x y => HS.call (less x y)) s := heapSortM_run hc s

/-- C187: heap sort keeps the contract of `sort.Sort`, and uses only positions of the data whatever the answers are. So C62, C143 and C186 are about it. -/
theorem C187_contract : SortContract heapSortProg ∧ SortsInside heapSortProg := by
  refine ⟨fun T l hw xs => ?_, heapSort_inside⟩
  obtain ⟨out, ho⟩ := (heapSort_inside xs.length).onList l _ xs
  refine ⟨out, ho, ?_⟩
  cases xs with
  | nil =>
    have := (SortProg.onList_perm _ ho).length_eq
    intro i j hi
    exact absurd hi (by rw [this]; exact Nat.not_lt_zero _)
  | cons d ds =>
    generalize d :: ds = xs at ho
    have hw' : StrictWeak (fun x y => l y x) :=
      ⟨fun a => hw.irrefl a, fun a b c h1 h2 => hw.trans c b a h2 h1, fun a b c h1 h2 h3 h4 => hw.incomp c b a h3 h4 h1 h2⟩
    let a : Sl := ⟨0, xs.length, xs.length⟩
    let m : Mem T := (⟨fun _ => d, xs.length⟩ : Mem T).write 0 xs
    let less : LessM T Unit := fun x y => pure (l x y)
    obtain ⟨ys, m', t', e, -, h2, h3, -⟩ := C98_heapsort (fun x y => less y x) (fun x y => l y x) (fun x y t => ⟨t, rfl⟩) hw' a m () ⟨Nat.le_refl _, by simp [a, m]⟩ a
    have hrun : heapSortM a less ⟨m, (), a⟩ = .ok () ⟨m', t', { a with len := 0 }⟩ := by
      simp only [heapSortM, GoM.bind_def] at e ⊢
      revert e
      cases makeHeapFuncM a (fun x y => less y x) ⟨m, (), a⟩ with
      | ok u s1 =>
        simp only [HS.assign]
        cases popTimes (fun x y => less y x) a.len { s1 with heap := a } with
        | ok v s2 => intro e; cases e; rfl
        | panic s2 => intro e; cases e
        | diverge => intro e; cases e
      | panic s1 => intro e; cases e
      | diverge => intro e; cases e
    have hp := C187_program less a (Nat.le_refl _) ⟨m, (), a⟩
    rw [hrun] at hp
    obtain ⟨t2, e2⟩ := SortProg.run_answers (a := a) (less := less) (l := l) (fun x y t => ⟨t, rfl⟩) (heapSortProg a.len) (⟨fun _ => d, xs.length⟩ : Mem T) a () (xs := xs) rfl ho
    have e3 := hp.trans e2
    simp only [Res.besides] at e3
    have hm : m' = (⟨fun _ => d, xs.length⟩ : Mem T).write a.off out := by
      injection e3 with _ h
      injection h
    have hl : out.length = a.len := (SortProg.onList_perm _ ho).length_eq
    rw [hm, Sl.read_write_self _ _ _ hl] at h3
    rw [h3]
    intro i j hi hj hij
    rw [List.length_reverse] at hi hj
    rw [List.getElem_reverse, List.getElem_reverse]
    exact h2 _ _ (by omega) (by omega) (by omega)

/-- C187: sorting `n` elements this way makes at least `n - 1` calls of the comparison function and at most `2n + 2n log₂ n`. -/
theorem C187_calls {l : T → T → Bool} (hw : StrictWeak l) (a : Sl) (hc : a.len ≤ a.cap) (s : HS T Nat) :
    ∃ s', heapSortM a (fun x y n => .ok (l x y) (n + 1)) s = .ok () s' ∧ s.st + (a.len - 1) ≤ s'.st ∧ s'.st ≤ s.st + 2 * a.len + 2 * a.len * Nat.log2 a.len := by
  obtain ⟨⟨s', e, h⟩, -⟩ := C186_least C187_contract.1 hw a s
  have hp := (C187_program (countedM l) a hc s).trans e
  have h1 := make_raises (a := a) (fun x y => l y x) s
  show ∃ s', heapSortM a (countedM l) s = .ok () s' ∧ _
  simp only [heapSortM, GoM.bind_def] at hp ⊢
  revert hp
  change RaisesBy _ _ _ (makeHeapFuncM a (fun x y => countedM l y x) s) at h1
  cases e1 : makeHeapFuncM a (fun x y => countedM l y x) s with
  | ok u s1 =>
    rw [e1] at h1
    simp only [HS.assign]
    have h2 := popTimes_raises (fun x y => l y x) a.len a.len { s1 with heap := a } (Nat.le_refl _) rfl hc
    change RaisesBy _ _ _ (popTimes (fun x y => countedM l y x) a.len { s1 with heap := a }) at h2
    cases e2 : popTimes (fun x y => countedM l y x) a.len { s1 with heap := a } with
    | ok xs s2 =>
      rw [e2] at h2
      simp only [RaisesBy] at h1 h2
      intro hp
      injection hp with _ hp
      subst hp
      exact ⟨s2, rfl, h, by omega⟩
    | panic s2 => intro hp; cases hp
    | diverge => intro hp; cases hp
  | panic s1 => intro hp; cases hp
  | diverge => intro hp; cases hp

/-- C187: for every length some arrangement of the numbers below it takes at least `log₂ n!` calls, as for every sort: with heaps, too, the pops cannot all be cheap. -/
theorem C187_worst (a : Sl) (hc : a.len ≤ a.cap) (m : Mem Nat) (h : Sl) :
    ∃ (xs : List Nat) (c : Nat) (s' : HS Nat Nat), xs.Perm (List.range a.len) ∧ a.len.factorial ≤ 2 ^ c ∧
      heapSortM a (fun x y n => .ok (decide (x < y)) (n + 1)) ⟨m.write a.off xs, 0, h⟩ = .ok () s' ∧ s'.st = c ∧ s'.mem = m.write a.off (List.range a.len) := by
  obtain ⟨xs, c, h1, h2, h3, -⟩ := C186_worst C187_contract.1 a m h
  have hp := (C187_program (countedM (fun x y : Nat => decide (x < y))) a hc ⟨m.write a.off xs, 0, h⟩).trans h3
  refine ⟨xs, c, ?_⟩
  show ∃ s', _ ∧ _ ∧ heapSortM a (countedM (fun x y : Nat => decide (x < y))) _ = .ok () s' ∧ _
  revert hp
  cases heapSortM a (countedM (fun x y : Nat => decide (x < y))) ⟨m.write a.off xs, 0, h⟩ with
  | ok u s' =>
    intro hp
    injection hp with _ hp
    injection hp with e1 e2 e3
    exact ⟨s', h1, h2, rfl, e2, e1⟩
  | panic s' => intro hp; cases hp
  | diverge => intro hp; cases hp

/-- C187: making the heap takes at most `2n` calls, so the rest has to be in the pops: some heap of `n` elements takes `c` calls to be emptied with `n! ≤ 2^(c + 2n)`. -/
theorem C187_drain (a : Sl) (hc : a.len ≤ a.cap) (m : Mem Nat) :
    ∃ (s : HS Nat Nat) (xs : List Nat) (s' : HS Nat Nat), s.heap = a ∧ (a.read s.mem).Perm (List.range a.len) ∧ IsHeap (fun x y => decide (y < x)) (a.read s.mem) ∧
      popTimes (fun x y n => .ok (decide (y < x)) (n + 1)) a.len s = .ok xs s' ∧ a.len.factorial ≤ 2 ^ (s'.st - s.st + 2 * a.len) := by
  obtain ⟨xs, c, s', h1, h2, h3, h4, -⟩ := C187_worst a hc m a
  have hg : StrictWeak (fun x y : Nat => decide (y < x)) := ⟨by simp, by simp only [decide_eq_true_eq]; omega, by simp only [decide_eq_false_iff_not]; omega⟩
  have hm := make_raises (a := a) (fun x y : Nat => decide (y < x)) ⟨m.write a.off xs, 0, a⟩
  have hlen : xs.length = a.len := by simpa using h1.length_eq
  obtain ⟨ys, g1, g2, g3⟩ := makeHeapFunc_spec hg (a.read (m.write a.off xs))
  obtain ⟨hly, t1, e⟩ := makeHeapFuncM_refines (less := countedM (fun x y : Nat => decide (y < x))) (fun x y t => ⟨t + 1, rfl⟩) a (⟨m.write a.off xs, 0, a⟩ : HS Nat Nat) g1
  rw [e] at hm
  simp only [RaisesBy] at hm
  refine ⟨⟨(m.write a.off xs).write a.off ys, t1, a⟩, ?_⟩
  have hr : a.read ((m.write a.off xs).write a.off ys) = ys := Sl.read_write_self _ _ _ hly
  have h3 : heapSortM a (countedM (fun x y : Nat => decide (x < y))) ⟨m.write a.off xs, 0, a⟩ = .ok () s' := h3
  have e : makeHeapFuncM a (fun x y => countedM (fun x y : Nat => decide (x < y)) y x) ⟨m.write a.off xs, 0, a⟩ = _ := e
  simp only [heapSortM, GoM.bind_def, e, HS.assign] at h3
  revert h3
  show _ → ∃ vs s', _ ∧ _ ∧ _ ∧ popTimes (fun x y => countedM (fun x y : Nat => decide (x < y)) y x) a.len ⟨(m.write a.off xs).write a.off ys, t1, a⟩ = .ok vs s' ∧ _
  cases popTimes (fun x y => countedM (fun x y : Nat => decide (x < y)) y x) a.len ⟨(m.write a.off xs).write a.off ys, t1, a⟩ with
  | ok vs s2 =>
    intro h3
    injection h3 with _ h3
    subst h3
    refine ⟨vs, s2, rfl, ?_, ?_, rfl, ?_⟩
    · rw [hr]; rw [Sl.read_write_self _ _ _ hlen] at g2; exact g2.trans h1
    · rw [hr]; exact g3
    · refine Nat.le_trans h2 (Nat.pow_le_pow_right (by omega) ?_)
      simp only
      omega
  | panic s2 => intro h3; cases h3
  | diverge => intro h3; cases h3

/-- Three elements in reverse order, sorted with 3 calls; 2 would not do for all 3! = 6 arrangements. -/
example : (let a : Sl := ⟨1, 3, 3⟩
    match heapSortM a (fun x y n => .ok (decide (x < y)) (n + 1)) ⟨(⟨fun k => 9 - k, 5⟩ : Mem Nat), 0, a⟩ with
      | .ok _ s => (s.st, a.read s.mem)
      | _ => (0, [])) = (3, [6, 7, 8]) := by decide +kernel

end Stl4go
