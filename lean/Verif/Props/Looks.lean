import Verif.Proofs.Looks
import Verif.Proofs.GenerateCost
/-!
# C168: what the functions that only look at slices look at

`Looks x o t` (`Spec/Looks.lean`) says that the recording call `x` ends with the outcome `o` – that of the function of the model – and looked at exactly `t` on the way: element
reads and comparisons or calls, in order, with operands. So the bounds of the documentation hold (`C168_cost`), and nothing behind the place where the answer is known matters.
-/
namespace Stl4go
variable {T : Type}

/-- C168: `Find`, `Index`, `FindIf`, `AnyOf`, `NoneOf` and `AllOf` look at each element up to the first one that settles the answer, in order, and at no other. -/
theorem C168_lookup (a : List T) :
    (∀ [GoEq T] (x : T), ∃ k, Until (fun v => GoEq.eq v x) a k ∧ Looks (findLooks a x) (.ret (find a x)) (visit (fun i v => [.a i, .eq v x]) a k) ∧
      Looks (indexLooks a x) (.ret (index a x)) (visit (fun i v => [.a i, .eq v x]) a k)) ∧
    ∀ p : T → Bool,
      (∃ k, Until p a k ∧ Looks (findIfLooks a p) (.ret (findIf a p)) (visit (fun i v => [.a i, .call v]) a k) ∧
        Looks (anyOfLooks a p) (.ret (anyOf a p)) (visit (fun i v => [.a i, .call v]) a k) ∧
        Looks (noneOfLooks a p) (.ret (noneOf a p)) (visit (fun i v => [.a i, .call v]) a k)) ∧
      ∃ k, Until (fun v => !p v) a k ∧ Looks (allOfLooks a p) (.ret (allOf a p)) (visit (fun i v => [.a i, .call v]) a k) := by
  refine ⟨fun x => ⟨_, stopAfter_until _ a, ?_, ?_⟩, fun p => ⟨⟨_, stopAfter_until _ a, ?_, ?_, ?_⟩, _, stopAfter_until _ a, ?_⟩⟩
  · rw [← looksOf_visit]; exact findLoopLooks_eq x a a 0 rfl
  · rw [← looksOf_visit]; exact indexLoopLooks_eq x a a 0 rfl
  · rw [← looksOf_visit]; exact findIfLoopLooks_eq p a a 0 rfl
  · rw [← looksOf_visit]; exact anyOfLoopLooks_eq p a a 0 rfl
  · rw [← looksOf_visit]; simpa [noneOfLooks, noneOf, anyOfLooks] using (anyOfLoopLooks_eq p a a 0 rfl).bind (f := fun b => pure (!b)) (Looks.pure _)
  · rw [← looksOf_visit]; exact allOfLoopLooks_eq p a a 0 rfl

/-- C168: `Count`, `CountIf`, `SumAs`, `Sum`, `AverageAs` and `Average` look at each element once, in order; `AverageAs` and `Average` also where they panic. -/
theorem C168_compute (a : List T) :
    (∀ [GoEq T] (x : T), Looks (countLooks a x) (.ret (count a x)) (visit (fun i v => [.a i, .eq v x]) a a.length)) ∧
    (∀ p : T → Bool, Looks (countIfLooks a p) (.ret (countIf a p)) (visit (fun i v => [.a i, .call v]) a a.length)) ∧
    ∀ (pf : Platform) (R N : NType) (b : List N.kind.Val),
      Looks (sumAsLooks pf R N b) (.ret (sumAs pf R N b)) ((List.range b.length).map .a) ∧ Looks (sumLooks pf N b) (.ret (sum pf N b)) ((List.range b.length).map .a) ∧
      Looks (averageAsLooks pf R N b) (averageAs pf R N b) ((List.range b.length).map .a) ∧ Looks (averageLooks pf N b) (average pf N b) ((List.range b.length).map .a) := by
  refine ⟨fun x => ?_, fun p => ?_, fun pf R N b => ?_⟩
  · have h := countLoopLooks_eq x a a 0 0 rfl
    rw [looksOf_visit, never_until a (stopAfter_until _ a)] at h; exact h
  · have h := countIfLoopLooks_eq p a a 0 0 rfl
    rw [looksOf_visit, never_until a (stopAfter_until _ a)] at h; exact h
  · have e : visit (fun i (_ : N.kind.Val) => [Look.a (T := N.kind.Val) i]) b b.length = (List.range b.length).map .a := by
      simp only [visit, List.take_length]
      rw [← List.map_eq_flatMap, List.zipIdx_eq_zip_range', List.range_eq_range']
      show ((b.zip (List.range' 0 b.length)).map (Look.a ∘ Prod.snd)) = _
      rw [← List.map_map, List.map_snd_zip (by simp)]
    have hs : ∀ R, Looks (sumAsLooks pf R N b) (.ret (sumAs pf R N b)) ((List.range b.length).map .a) := fun R => by
      have h := sumLoopLooks_eq pf (sumAcc N) N.kind b b 0 (sumAcc N).zero rfl
      rw [looksOf_visit, never_until b (stopAfter_until _ b), e] at h
      simpa [sumAsLooks, sumAs] using h.bind (f := fun t => pure ((sumAcc N).conv pf R.kind t)) (Looks.pure _)
    have ha : ∀ R, Looks (averageAsLooks pf R N b) (averageAs pf R N b) ((List.range b.length).map .a) := fun R => by
      simpa [averageAsLooks, averageAs] using (hs R).bind (f := fun s => GoM.ofOutcome (R.kind.div pf s ((NKind.int .int).conv pf R.kind (b.length : Int)))) (Looks.ofOutcome _)
    refine ⟨hs R, hs N, ha R, ?_⟩
    unfold averageLooks average
    cases averageVia N with
    | none => exact ha N
    | some Q =>
      show Looks (averageAsLooks pf Q N b >>= fun r => pure (Q.kind.conv pf N.kind r)) (averageAs pf Q N b >>= fun r => pure (Q.kind.conv pf N.kind r)) _
      intro s
      rw [GoM.bind_def, ha Q s]
      cases averageAs pf Q N b <;> rfl

/-- C168: `Equal` looks at nothing if the lengths differ, and otherwise at pairs up to the first two that differ. -/
theorem C168_equal [GoEq T] (a b : List T) :
    (a.length ≠ b.length → Looks (equalLooks a b) (equal a b) []) ∧
    (a.length = b.length → ∃ k, Until (fun v : T × T => !GoEq.eq v.1 v.2) (a.zip b) k ∧
      Looks (equalLooks a b) (equal a b) (visit (fun i v => [.a i, .b i, .eq v.1 v.2]) (a.zip b) k)) := by
  constructor
  · intro h; simpa [equalLooks, equal, h] using Looks.pure _
  · intro h
    refine ⟨_, stopAfter_until _ _, ?_⟩
    obtain ⟨r, r1, r2⟩ := equalLoopLooks_eq a b a b 0 rfl rfl h
    rw [← looksOf_visit]
    simpa [equalLooks, equal, h, h ▸ r1] using h ▸ r2

/-- C168: `Compare` looks at pairs up to the first two of which one is smaller, and if there are no such two and `b` ends first at one more element of `a`. -/
theorem C168_compare [GoOrd T] (a b : List T) :
    ∃ k, Until apart (a.zip b) k ∧
      Looks (compareLooks a b) (compare a b) (visit comparing (a.zip b) k ++ if (a.zip b).any apart || decide (a.length ≤ b.length) then [] else [.a b.length]) := by
  refine ⟨_, stopAfter_until _ _, ?_⟩
  obtain ⟨r, r1, r2⟩ := compareLoopLooks_eq a b a b 0 rfl rfl (Nat.zero_le _)
  rw [← looksOf_visit, compare, r1]
  exact r2

/-- C168: `IsSorted` and `IsDescSorted` look at the first element and then at one after the other up to the first that is out of order. -/
theorem C168_sorted [GoOrd T] (a : List T) (h : a ≠ []) :
    (∃ k, Until (fun v : T × T => GoOrd.lt v.2 v.1) (neighbours a) k ∧
      Looks (isSortedLooks a) (isSorted a) (.a 0 :: visit (fun i v => [.a (i + 1), .lt v.2 v.1]) (neighbours a) k)) ∧
    ∃ k, Until (fun v : T × T => GoOrd.lt v.1 v.2) (neighbours a) k ∧
      Looks (isDescSortedLooks a) (isDescSorted a) (.a 0 :: visit (fun i v => [.a (i + 1), .lt v.1 v.2]) (neighbours a) k) := by
  cases a with
  | nil => exact absurd rfl h
  | cons u l =>
    have hz : neighbours (u :: l) = (u :: l).zip l := rfl
    constructor
    · refine ⟨_, stopAfter_until _ _, ?_⟩
      rw [← looksOf_visit, hz]
      have := (Looks.readA (a := u :: l) (i := 0) (v := u) rfl).bind (f := fun u' => isSortedLoopLooks (u :: l) l.length 1 u') (isSortedLoopLooks_eq (u :: l) l 0 u rfl)
      simpa [isSortedLooks, isSorted, idx] using this
    · refine ⟨_, stopAfter_until _ _, ?_⟩
      rw [← looksOf_visit, hz]
      have := (Looks.readA (a := u :: l) (i := 0) (v := u) rfl).bind (f := fun u' => isDescSortedLoopLooks (u :: l) l.length 1 u') (isDescSortedLoopLooks_eq (u :: l) l 0 u rfl)
      simpa [isDescSortedLooks, isDescSorted, idx] using this

/-- C168: `MaxN`, `MinN` and `MinMaxN` make `len(a) - 1` comparisons, `MinMaxN` twice as many, and read each element once at least and, where it becomes the result so far, once more. -/
theorem C168_extremes [GoOrd T] (a : List T) (h : a ≠ []) :
    (∃ t, Looks (maxNLooks a) (maxN a) (.a 0 :: t) ∧ Through a 1 1 t) ∧ (∃ t, Looks (minNLooks a) (minN a) (.a 0 :: t) ∧ Through a 1 1 t) ∧
    ∃ t, Looks (minMaxNLooks a) (minMaxN a) (.a 0 :: .a 0 :: t) ∧ Through a 2 1 t := by
  cases a with
  | nil => exact absurd rfl h
  | cons u l =>
    have h0 := Looks.readA (a := u :: l) (i := 0) (v := u) rfl
    refine ⟨?_, ?_, ?_⟩
    · obtain ⟨r, t, r1, r2, r3⟩ := maxNLoopLooks_eq (u :: l) l 1 u rfl
      refine ⟨t, ?_, r3⟩
      have := h0.bind (f := fun u' => maxNLoopLooks (u :: l) l.length 1 u') r2
      simpa [maxNLooks, maxN, idx, r1] using this
    · obtain ⟨r, t, r1, r2, r3⟩ := minNLoopLooks_eq (u :: l) l 1 u rfl
      refine ⟨t, ?_, r3⟩
      have := h0.bind (f := fun u' => minNLoopLooks (u :: l) l.length 1 u') r2
      simpa [minNLooks, minN, idx, r1] using this
    · obtain ⟨r, t, r1, r2, r3⟩ := minMaxNLoopLooks_eq (u :: l) l 1 u u rfl
      refine ⟨t, ?_, r3⟩
      have := h0.bind (f := fun u' => do let v ← readA (u :: l) 0; minMaxNLoopLooks (u :: l) l.length 1 u' v) (h0.bind (f := fun v => minMaxNLoopLooks (u :: l) l.length 1 u v) r2)
      simpa [minMaxNLooks, minMaxN, idx, r1] using this

/-- C168: the documented bounds. With reads, comparisons and calls counted alike: "O(len(a))", for `Equal` and `Compare` "O(min(len(a), len(b)))". -/
theorem C168_cost (a b : List T) :
    (∀ [GoEq T] (x : T), (∃ t, Looks (findLooks a x) (.ret (find a x)) t ∧ t.length ≤ 2 * a.length) ∧ (∃ t, Looks (indexLooks a x) (.ret (index a x)) t ∧ t.length ≤ 2 * a.length) ∧
      (∃ t, Looks (countLooks a x) (.ret (count a x)) t ∧ t.length ≤ 2 * a.length) ∧ ∃ t, Looks (equalLooks a b) (equal a b) t ∧ t.length ≤ 3 * min a.length b.length) ∧
    (∀ p : T → Bool, (∃ t, Looks (findIfLooks a p) (.ret (findIf a p)) t ∧ t.length ≤ 2 * a.length) ∧ (∃ t, Looks (allOfLooks a p) (.ret (allOf a p)) t ∧ t.length ≤ 2 * a.length) ∧
      (∃ t, Looks (anyOfLooks a p) (.ret (anyOf a p)) t ∧ t.length ≤ 2 * a.length) ∧ (∃ t, Looks (noneOfLooks a p) (.ret (noneOf a p)) t ∧ t.length ≤ 2 * a.length) ∧
      ∃ t, Looks (countIfLooks a p) (.ret (countIf a p)) t ∧ t.length ≤ 2 * a.length) ∧
    (∀ [GoOrd T], (∃ t, Looks (compareLooks a b) (compare a b) t ∧ t.length ≤ 4 * min a.length b.length + 1) ∧ (∃ t, Looks (isSortedLooks a) (isSorted a) t ∧ t.length ≤ 2 * a.length) ∧
      (∃ t, Looks (isDescSortedLooks a) (isDescSorted a) t ∧ t.length ≤ 2 * a.length) ∧ (∃ t, Looks (maxNLooks a) (maxN a) t ∧ t.length ≤ 3 * a.length) ∧
      (∃ t, Looks (minNLooks a) (minN a) t ∧ t.length ≤ 3 * a.length) ∧ ∃ t, Looks (minMaxNLooks a) (minMaxN a) t ∧ t.length ≤ 6 * a.length) ∧
    ∀ (pf : Platform) (R N : NType) (c : List N.kind.Val), (∃ t, Looks (sumAsLooks pf R N c) (.ret (sumAs pf R N c)) t ∧ t.length ≤ c.length) ∧
      (∃ t, Looks (sumLooks pf N c) (.ret (sum pf N c)) t ∧ t.length ≤ c.length) ∧ (∃ t, Looks (averageAsLooks pf R N c) (averageAs pf R N c) t ∧ t.length ≤ c.length) ∧
      ∃ t, Looks (averageLooks pf N c) (average pf N c) t ∧ t.length ≤ c.length := by
  have two : ∀ {e : Nat → T → List (Look T)} (k), (∀ i v, (e i v).length ≤ 2) → (visit e a k).length ≤ 2 * a.length := fun k h => visit_length_le 2 h a k
  refine ⟨fun x => ?_, fun p => ?_, ?_, fun pf R N c => ?_⟩
  · obtain ⟨k, _, h1, h2⟩ := (C168_lookup a).1 x
    refine ⟨⟨_, h1, two k (by simp)⟩, ⟨_, h2, two k (by simp)⟩, ⟨_, (C168_compute a).1 x, two _ (by simp)⟩, ?_⟩
    rcases Nat.decEq a.length b.length with h | h
    · exact ⟨_, (C168_equal a b).1 h, by simp⟩
    · obtain ⟨k, _, h⟩ := (C168_equal a b).2 h
      exact ⟨_, h, by simpa using visit_length_le 3 (fun i v => by simp) (a.zip b) k⟩
  · obtain ⟨⟨k, _, h1, h2, h3⟩, k', _, h4⟩ := (C168_lookup a).2 p
    exact ⟨⟨_, h1, two k (by simp)⟩, ⟨_, h4, two k' (by simp)⟩, ⟨_, h2, two k (by simp)⟩, ⟨_, h3, two k (by simp)⟩, ⟨_, (C168_compute a).2.1 p, two _ (by simp)⟩⟩
  · intro _
    refine ⟨?_, ?_⟩
    · obtain ⟨k, _, h⟩ := C168_compare a b
      refine ⟨_, h, ?_⟩
      have h4 : (visit comparing (a.zip b) k).length ≤ 4 * min a.length b.length := by
        simpa using visit_length_le 4 (fun i v => by simp only [comparing]; split <;> simp) (a.zip b) k
      have h1 : (if (a.zip b).any apart || decide (a.length ≤ b.length) then [] else [Look.a (T := T) b.length]).length ≤ 1 := by split <;> simp
      rw [List.length_append]; omega
    · cases ha : a with
      | nil => exact ⟨⟨[], Looks.pure _, by simp⟩, ⟨[], Looks.pure _, by simp⟩, ⟨[], fun s => by simp [maxNLooks, maxN, Outcome.leaving], by simp⟩,
          ⟨[], fun s => by simp [minNLooks, minN, Outcome.leaving], by simp⟩, ⟨[], fun s => by simp [minMaxNLooks, minMaxN, Outcome.leaving], by simp⟩⟩
      | cons u l =>
        rw [← ha]
        have hne : a ≠ [] := by rw [ha]; simp
        have hl : a.length = l.length + 1 := by rw [ha]; rfl
        have hn : (neighbours a).length = l.length := by rw [ha]; simp [neighbours]
        obtain ⟨⟨k, _, h1⟩, k', _, h2⟩ := C168_sorted a hne
        obtain ⟨⟨t1, m1, m1'⟩, ⟨t2, m2, m2'⟩, t3, m3, m3'⟩ := C168_extremes a hne
        refine ⟨⟨_, h1, ?_⟩, ⟨_, h2, ?_⟩, ⟨_, m1, ?_⟩, ⟨_, m2, ?_⟩, ⟨_, m3, ?_⟩⟩
        · have := visit_length_le 2 (e := fun i (v : T × T) => [Look.a (i + 1), Look.lt v.2 v.1]) (by simp) (neighbours a) k
          rw [List.length_cons]; omega
        · have := visit_length_le 2 (e := fun i (v : T × T) => [Look.a (i + 1), Look.lt v.1 v.2]) (by simp) (neighbours a) k'
          rw [List.length_cons]; omega
        · have := m1'.length_le; rw [List.length_cons]; omega
        · have := m2'.length_le; rw [List.length_cons]; omega
        · have := m3'.length_le; rw [List.length_cons, List.length_cons]; omega
  · obtain ⟨h1, h2, h3, h4⟩ := (C168_compute a).2.2 pf R N c
    exact ⟨⟨_, h1, by simp⟩, ⟨_, h2, by simp⟩, ⟨_, h3, by simp⟩, ⟨_, h4, by simp⟩⟩

/-- C168: `Generate` writes each element once, and `Range` makes an array of the right size and writes each element once (the counts of C167). "O(len(a))", "O(last-first)".
For integers whose difference fits the type and `int`; what happens for others is in C59 and C85. -/
theorem C168_generate {σ : Type} (a : Sl) (m : Mem T) (gen : σ → σ × T) (t : σ) : AtMost a.len m (generateAcc a gen t) (generate a gen t) ∧
    ∀ (pf : Platform), pf.Real → ∀ (grow : Nat → Nat → Nat) (g : GoInt) (first last : Int), g.Holds pf.w first → g.Holds pf.w last → first ≤ last →
      last - first ≤ g.max pf.w → last - first ≤ GoInt.int.max pf.w → ∀ (fuel : Nat) (m : Mem (NKind.int g).Val),
      AtMost (2 * (last - first).toNat) m (rangeAcc pf grow fuel (.int g) first last) (range pf grow fuel (.int g) first last) := by
  refine ⟨(generateLoopAcc_within a gen _ _ t m).1, fun pf hw grow g first last hf hl hle hd hi fuel m => ?_⟩
  have h0 : g.min pf.w ≤ 0 := by
    unfold GoInt.min
    have := two_pow_pos (g.bits pf.w - 1)
    split <;> omega
  have h1 : GoInt.int.min pf.w ≤ 0 := by
    unfold GoInt.min
    have := two_pow_pos (GoInt.int.bits pf.w - 1)
    split <;> omega
  have e1 : g.wrap pf.w (last - first) = last - first := g.wrap_of_holds hw ⟨by omega, hd⟩
  have e2 : GoInt.int.wrap pf.w (last - first) = last - first := GoInt.int.wrap_of_holds hw ⟨by omega, hi⟩
  have ec : (NKind.int g).conv pf (.int .int) ((NKind.int g).sub pf last first) = (last - first : Int) := by
    show GoInt.int.wrap pf.w (g.wrap pf.w (last - first)) = _
    rw [e1, e2]
  have hc := climb_int hw g hl (last - first).toNat hf (by omega)
  have hlen : (upFrom first (last - first).toNat).length = (last - first).toNat := by simp [upFrom]
  have hm := makeAcc_within (T := (NKind.int g).Val) (m := m) 0 (last - first)
  refine (show Within m (rangeAcc pf grow fuel (.int g) first last) (range pf grow fuel (.int g) first last) _ (fun _ _ => True) from ?_).1
  unfold rangeAcc range
  rw [ec]
  exact hm.bind (fun b _ hb => rangeLoopAcc_within grow (.int g) hc fuel b _ (by rw [hlen]; omega)) (by rw [hlen]; omega)

/-! Two elements found at once, and not at all; a comparison settled by the second pair, and one by the lengths. -/
example : findLooks [5, 7, 9, 7] (7 : Int) [] = .ok (1, true) [.a 0, .eq 5 7, .a 1, .eq 7 7] := by decide +kernel
example : findLooks [5, 7] (8 : Int) [] = .ok (-1, false) [.a 0, .eq 5 8, .a 1, .eq 7 8] := by decide +kernel
example : compareLooks [1, 5, 9] [1, (4 : Int), 9] [] = .ok 1 [.a 0, .b 0, .lt 1 1, .lt 1 1, .a 1, .b 1, .lt 5 4, .lt 4 5] := by decide +kernel
example : compareLooks [1, 5] [(1 : Int)] [] = .ok 1 [.a 0, .b 0, .lt 1 1, .lt 1 1, .a 1] := by decide +kernel
example : equalLooks [1, 5, 9] [1, (4 : Int), 9] [] = .ok false [.a 0, .b 0, .eq 1 1, .a 1, .b 1, .eq 5 4] := by decide +kernel
example : isSortedLooks [1, 5, 4, (9 : Int)] [] = .ok false [.a 0, .a 1, .lt 5 1, .a 2, .lt 4 5] := by decide +kernel
example : maxNLooks [3, 1, (4 : Int)] [] = .ok 4 [.a 0, .a 1, .lt 3 1, .a 2, .lt 3 4, .a 2] := by decide +kernel

end Stl4go
