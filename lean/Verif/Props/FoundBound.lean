import Verif.Proofs.FoundBound
import Verif.Proofs.AskBound
import Verif.Props.Looks
/-! # Property C190: how many comparisons it takes to tell whether a value is there (`/repo/binary_search.go`, `/repo/lookup.go`) -/
namespace Stl4go
variable {T : Type}

/-- C190: `BinarySearchFunc` in `n` elements calls the comparison function never if `n` is 0, otherwise at most `⌊log₂ n⌋ + 2` times, and that often whenever no element is less than the
value. -/
theorem C190_calls (l : T → T → Bool) (a : Sl) (v : T) (m : Mem T) (t : Nat) :
    (∃ b c, binarySearchFuncE a v (countedCmp l) ⟨m, t⟩ = .ok b ⟨m, t + c⟩ ∧ c ≤ if a.len = 0 then 0 else Nat.log2 a.len + 2) ∧
    (0 < a.len → (∀ x ∈ a.read m, l x v = false) → ∃ b, binarySearchFuncE a v (countedCmp l) ⟨m, t⟩ = .ok b ⟨m, t + (Nat.log2 a.len + 2)⟩) := by
  obtain ⟨b, e⟩ := binarySearch_bisect l a v m t
  have h := (bisect_bounds (fun i => l (m.cell (a.off + i)) v) (a.len + 1) 0 a.len (by omega)).2
  refine ⟨⟨b, _, e, ?_⟩, fun hpos hall => ⟨b, ?_⟩⟩
  · unfold mostCalls at h
    (repeat' split) <;> simp_all <;> omega
  · have hin : ∀ i, 0 ≤ i → i < 0 + a.len → l (m.cell (a.off + i)) v = false := fun i _ hi => hall _ (by
      rw [Sl.read]
      exact List.mem_map.2 ⟨i, List.mem_range.2 (by omega), rfl⟩)
    rw [e, bisect_left _ _ _ _ (by omega) hin, bisect_left_place _ _ _ _ hin, if_pos hpos, mostCalls, if_neg (by omega)]

/-- C190: no program can do with fewer in the worst case, even if it need only tell whether the value is there. Whatever way to search is right for every ascending list of `n > 0` integers,
there are a list and a value for which it asks at least `⌊log₂ n⌋ + 2` times. -/
theorem C190_optimal {p : SearchProg} {n : Nat} (hn : 0 < n) (h : p.Tells n) :
    ∃ (xs : List Int) (v : Int) (r c : Nat), xs.length = n ∧ xs.Pairwise (· < ·) ∧ p.run (fun x y => decide (x < y)) xs v = some (r, c) ∧ Nat.log2 n + 2 ≤ c := by
  obtain ⟨c, r, k, -, e, hk⟩ := SearchProg.worst_tells h
  refine ⟨odds n, c, r, k, by simp [odds], odds_ascending n, e, ?_⟩
  have h1 : Nat.log2 (2 * n) < k := (Nat.log2_lt (by omega)).2 (by omega)
  rw [Nat.log2_two_mul (by omega)] at h1
  omega

/-- C190: the way `BinarySearchFunc` searches is such a program for every `n`; it asks as often as `BinarySearchFunc` calls the comparison function, and gives the same result. -/
theorem C190_program (n : Nat) :
    (binarySearchProg n).Tells n ∧
    ∀ (l : T → T → Bool) (a : Sl) (v : T) (m : Mem T) (t : Nat), a.len = n →
      ∃ r c, (binarySearchProg n).run l (a.read m) v = some (r, c) ∧
        binarySearchFuncE a v (countedCmp l) ⟨m, t⟩ = .ok ((r : Int) - 1, decide (r ≠ 0)) ⟨m, t + c⟩ := by
  refine ⟨fun xs v hl ha => ?_, fun l a v m t hn => ?_⟩
  · obtain ⟨c, e, -⟩ := lowerBoundProg_finds n xs v hl ha
    have hpl : ∀ i x, xs[i]? = some x → (x < v ↔ i < xs.countP fun x => decide (x < v)) := fun i x h => ascending_place v xs ha i x h
    by_cases hr : xs.countP (fun x => decide (x < v)) < n
    · have hg : xs[xs.countP (fun x => decide (x < v))]? = some (xs[xs.countP (fun x => decide (x < v))]'(by omega)) := List.getElem?_eq_getElem (by omega)
      generalize hx : xs[xs.countP (fun x => decide (x < v))]'(by omega) = x at hg
      refine ⟨_, _, SearchProg.run_andThen _ xs v _ _ e (r' := if v < x then 0 else xs.countP (fun x => decide (x < v)) + 1) (c' := 1) ?_, ?_⟩
      · rw [if_pos hr]
        simp only [SearchProg.run, Option.elim, hg, Option.map_some, decide_eq_true_eq]
      · have h1 := hpl _ _ hg
        constructor
        · intro h
          have : ¬ v < x := fun hc => h (if_pos hc)
          have : v = x := by omega
          rw [this]
          exact List.mem_of_getElem? hg
        · intro h hc
          obtain ⟨j, hj, hjv⟩ := List.mem_iff_getElem.1 h
          have hvx : v < x := Classical.byContradiction fun hc' => by rw [if_neg hc'] at hc; omega
          have hj2 := hpl j v (by rw [← hjv]; exact List.getElem?_eq_getElem hj)
          have hle : xs.countP (fun x => decide (x < v)) ≤ j := by omega
          by_cases hej : xs.countP (fun x => decide (x < v)) = j
          · subst hej; omega
          · have := List.pairwise_iff_getElem.1 ha (xs.countP fun x => decide (x < v)) j (by omega) hj (by omega)
            omega
    · refine ⟨_, _, SearchProg.run_andThen _ xs v _ _ e (r' := 0) (c' := 0) (by rw [if_neg hr]; rfl), ?_⟩
      constructor
      · intro h; exact absurd rfl h
      · intro h
        obtain ⟨j, hj, hjv⟩ := List.mem_iff_getElem.1 h
        have hj2 := hpl j v (by rw [← hjv]; exact List.getElem?_eq_getElem hj)
        omega
  · subst hn
    obtain ⟨r, c, e1, e2⟩ := searchProg_both l a v m t
    by_cases hr : r < a.len
    · have hg : (a.read m)[r]? = some (m.cell (a.off + r)) := by simp [Sl.read, hr]
      refine ⟨_, _, SearchProg.run_andThen l (a.read m) v _ _ e1 (r' := if l v (m.cell (a.off + r)) then 0 else r + 1) (c' := 1) ?_, ?_⟩
      · rw [if_pos hr]
        simp only [SearchProg.run, Option.elim, hg, Option.map_some]
      · simp only [binarySearchFuncE, GoM.bind_def, e2]
        rw [if_pos hr]
        simp only [GoM.bind_def]
        rw [CS.on_get' hr]
        simp only [countedCmp]
        cases l v (m.cell (a.off + r)) with
        | false => simp; rfl
        | true => simp; rfl
    · refine ⟨_, _, SearchProg.run_andThen l (a.read m) v _ _ e1 (r' := 0) (c' := 0) (by rw [if_neg hr]; rfl), ?_⟩
      simp only [binarySearchFuncE, GoM.bind_def, e2]
      rw [if_neg hr]
      rfl

/-- C190: without order there is no way around asking about every element. Whoever tells by tests of equality whether a value is in a list of `n` integers asks at least `n` times in every
case in which it is not and the elements are different. -/
theorem C190_unordered {p : SearchProg} {n : Nat} (h : p.TellsAny n) {xs : List Int} {v : Int} (hl : xs.length = n) (hn : xs.Nodup) (hv : v ∉ xs) :
    ∃ c, p.run (fun x y => decide (x = y)) xs v = some (0, c) ∧ n ≤ c := by
  obtain ⟨r, c, e, hr⟩ := h xs v hl
  have hr0 : r = 0 := Classical.byContradiction fun hc => hv (hr.1 hc)
  subst hr0
  refine ⟨c, e, Classical.byContradiction fun hc => ?_⟩
  have ht := SearchProg.touched_length _ xs v p e
  obtain ⟨i, hi, hni⟩ := exists_untouched n (p.touched (fun x y => decide (x = y)) xs v) (by omega)
  have e2 := SearchProg.not_touched hn hv p (by rw [e]; rfl) hni
  obtain ⟨r', c', e3, hr'⟩ := h (xs.set i v) v (by simpa using hl)
  rw [e2, e] at e3
  injection e3 with e3
  injection e3 with e3 _
  subst e3
  exact hr'.2 (List.mem_set (by omega) v) rfl

/-- C190: `Find` and `Index` never make more tests than that. -/
theorem C190_library [GoEq T] (a : List T) (x : T) :
    (∃ t, Looks (findLooks a x) (.ret (find a x)) t ∧ comparisons t ≤ a.length) ∧ ∃ t, Looks (indexLooks a x) (.ret (index a x)) t ∧ comparisons t ≤ a.length := by
  obtain ⟨k, -, e1, e2⟩ := (C168_lookup a).1 x
  have := visit_comparisons (T := T) (fun i _ => .a i) (fun _ v => .eq v x) (fun _ _ => rfl) (fun _ _ => rfl) a k
  exact ⟨⟨_, e1, this⟩, _, e2, this⟩

/-- Comparing the value with each element in turn. -/
def askAll : (n i : Nat) → SearchProg
  | 0, _ => .found 0
  | n + 1, i => .ask (some i) none fun b => if b then .found (i + 1) else askAll n (i + 1)

/-- It tells whether the value is there, so the hypothesis of `C190_unordered` can be met; that of `C190_optimal` is by `C190_program`. -/
example : (askAll 2 0).TellsAny 2 := by
  intro xs v hl
  match xs, hl with
  | [x, y], _ =>
    by_cases h1 : x = v
    · exact ⟨1, 1, by simp [askAll, SearchProg.run, h1], by simp [h1]⟩
    · by_cases h2 : y = v
      · exact ⟨2, 2, by simp [askAll, SearchProg.run, h1, h2], by simp [h2]⟩
      · exact ⟨0, 2, by simp [askAll, SearchProg.run, h1, h2], by simp; omega⟩

/-- Six elements: 4 calls for a value that is first or before the first, 2 for one behind the last. -/
example : [0, 1, 4, 9].map (fun v => match binarySearchFuncE ⟨1, 6, 6⟩ v (countedCmp fun x y => decide (x < y)) (⟨⟨fun k => k, 8⟩, 0⟩ : CS Nat Nat) with
    | .ok r s => (r, s.st)
    | _ => ((9, true), 9)) = [((-1, false), 4), ((0, true), 4), ((3, true), 4), ((-1, false), 2)] := by decide +kernel

end Stl4go
