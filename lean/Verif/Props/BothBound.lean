import Verif.Proofs.BothBound
import Verif.Props.Looks
/-! # Property C192: the fewest comparisons that find the least and the greatest (`/repo/lookup.go`) -/
namespace Stl4go
variable {T : Type}

/-- C192: whoever finds both the least and the greatest of `n` different integers by comparisons makes at least `⌈3n/2⌉ - 2` of them in some case. -/
theorem C192_least {p : AskProg (Nat × Nat)} {n : Nat} (h : p.FindsBoth n) :
    ∃ (xs : List Int) (r : Nat × Nat) (E : List (Nat × Nat)), xs.length = n ∧ xs.Nodup ∧ p.run intLess xs = some (r, E) ∧ (3 * n + 1) / 2 - 2 ≤ E.length := by
  have hap : AllApart n fun i => (i : Int) := fun i j _ _ e => Int.ofNat.inj e
  have hlen : ∀ v : Nat → Int, (listOf n v).length = n := fun v => by simp [listOf]
  obtain ⟨st', v', r, E, h1, -, h3, -, h5⟩ := p.against (fun _ => .new) (fun i => (i : Int)) hap (fun v' hv' _ => by
    obtain ⟨lo, hi, E, x, y, e, -⟩ := h (listOf n v') (hlen v') (listOf_nodup hv')
    rw [e]; rfl)
  refine ⟨listOf n v', r, E, hlen v', listOf_nodup h1, h5 v' fun _ => SoFar.free_refl _ _, Classical.byContradiction fun hc => ?_⟩
  have ht : total n (fun _ => SoFar.new) = 3 * n := by
    unfold total
    induction n with
    | zero => rfl
    | succ n _ => simp [SoFar.weight, Nat.mul_comm]
  rw [ht] at h3
  have mem : ∀ {v : Nat → Int} {i : Nat}, i < n → v i ∈ listOf n v := fun {v i} hi => List.mem_map.2 ⟨i, List.mem_range.2 hi, rfl⟩
  have getv : ∀ {v : Nat → Int} {q : Nat} {x : Int}, (listOf n v)[q]? = some x → q < n ∧ x = v q := fun {v q x} e => by
    have hq := (List.getElem?_eq_some_iff.1 e).1
    rw [hlen] at hq
    rw [listOf_get hq] at e
    injection e with e
    exact ⟨hq, e.symm⟩
  rcases two_left n st' (by omega) with ⟨a, b, ha, hb, hab, ka, kb⟩ | ⟨a, b, ha, hb, hab, ka, kb⟩
  · obtain ⟨M, hM⟩ := exists_above n v'
    have key : ∀ c, c < n → (st' c = .new ∨ st' c = .top) → r.2 = c := by
      intro c hc kc
      have hp : AllApart n (put v' c M) := h1.put_above fun k hk => by have := hM k hk; omega
      have hm : Moves st' v' (put v' c M) := Moves.put (by
        have := hM c hc
        rcases kc with kc | kc <;> rw [kc] <;> simp only [SoFar.free] <;> omega)
      obtain ⟨lo, hi, E', x, y, e, -, ey, hall⟩ := h (listOf n (put v' c M)) (hlen _) (listOf_nodup hp)
      rw [h5 _ hm] at e
      injection e with e
      injection e with e _
      subst e
      obtain ⟨hq, rfl⟩ := getv ey
      have h6 := (hall _ (mem hc)).2
      show hi = c
      apply Classical.byContradiction
      intro hne
      have := hM hi hq
      simp only [put, if_true] at h6
      rw [if_neg hne] at h6
      omega
    exact hab ((key a ha ka).symm.trans (key b hb kb))
  · obtain ⟨M, hM⟩ := exists_below n v'
    have key : ∀ c, c < n → (st' c = .new ∨ st' c = .low) → r.1 = c := by
      intro c hc kc
      have hp : AllApart n (put v' c M) := h1.put_above fun k hk => by have := hM k hk; omega
      have hm : Moves st' v' (put v' c M) := Moves.put (by
        have := hM c hc
        rcases kc with kc | kc <;> rw [kc] <;> simp only [SoFar.free] <;> omega)
      obtain ⟨lo, hi, E', x, y, e, ex, -, hall⟩ := h (listOf n (put v' c M)) (hlen _) (listOf_nodup hp)
      rw [h5 _ hm] at e
      injection e with e
      injection e with e _
      subst e
      obtain ⟨hq, rfl⟩ := getv ex
      have h6 := (hall _ (mem hc)).1
      show lo = c
      apply Classical.byContradiction
      intro hne
      have := hM lo hq
      simp only [put, if_true] at h6
      rw [if_neg hne] at h6
      omega
    exact hab ((key a ha ka).symm.trans (key b hb kb))

/-- C192: and that many are enough, in every case and for equal integers too. -/
theorem C192_enough (n : Nat) (hn : 0 < n) :
    (minMaxPairs n).FindsBoth n ∧ ∀ xs : List Int, xs.length = n → ∃ lo hi x y E, (minMaxPairs n).run intLess xs = some ((lo, hi), E) ∧ xs[lo]? = some x ∧ xs[hi]? = some y ∧
      (∀ z ∈ xs, x ≤ z ∧ z ≤ y) ∧ E.length = (3 * n + 1) / 2 - 2 := by
  have main : ∀ xs : List Int, xs.length = n → ∃ lo hi x y E, (minMaxPairs n).run intLess xs = some ((lo, hi), E) ∧ xs[lo]? = some x ∧ xs[hi]? = some y ∧
      (∀ z ∈ xs, x ≤ z ∧ z ≤ y) ∧ E.length = (3 * n + 1) / 2 - 2 := by
    intro xs hl
    subst hl
    have g : ∀ i, i < xs.length → xs[i]? = some (xs.getD i 0) := fun i hi => by simp [hi]
    have fin : ∀ (r : Nat × Nat), r.1 < xs.length → r.2 < xs.length → (∀ i, i < xs.length → xs.getD r.1 0 ≤ xs.getD i 0 ∧ xs.getD i 0 ≤ xs.getD r.2 0) →
        ∃ x y, xs[r.1]? = some x ∧ xs[r.2]? = some y ∧ ∀ z ∈ xs, x ≤ z ∧ z ≤ y := fun r h1 h2 h3 =>
      ⟨_, _, g _ h1, g _ h2, fun z hz => by
        obtain ⟨i, hi, e⟩ := List.mem_iff_getElem.1 hz
        have := h3 i hi
        have e2 : xs.getD i 0 = z := by simp [hi, e]
        rwa [e2] at this⟩
    unfold minMaxPairs
    by_cases hodd : xs.length % 2 = 1
    · rw [if_pos hodd]
      obtain ⟨r, E, e, a1, a2, a3, a4⟩ := minMaxFrom_run xs (xs.length - 1) 1 0 0 (by omega) (by omega) (by omega) (fun i hi => by rw [show i = 0 by omega]; omega)
      obtain ⟨x, y, b1, b2, b3⟩ := fin r a1 a2 a3
      exact ⟨r.1, r.2, x, y, E, e, b1, b2, b3, by omega⟩
    · rw [if_neg hodd, AskProg.run_ask _ _ _ _ _ (g 1 (by omega)) (g 0 (by omega))]
      obtain ⟨r, E, e, a1, a2, a3, a4⟩ := minMaxFrom_run xs (xs.length - 2) 2 (if intLess (xs.getD 1 0) (xs.getD 0 0) then 1 else 0) (if intLess (xs.getD 1 0) (xs.getD 0 0) then 0 else 1)
        (by omega) (by split <;> omega) (by split <;> omega) (fun i hi => by
          simp only [intLess, decide_eq_true_eq]
          by_cases e : i = 0
          · subst e
            constructor <;> split <;> omega
          · rw [show i = 1 by omega]
            constructor <;> split <;> omega)
      obtain ⟨x, y, b1, b2, b3⟩ := fin r a1 a2 a3
      rw [e]
      exact ⟨r.1, r.2, x, y, _, rfl, b1, b2, b3, by simp only [List.length_cons]; omega⟩
  refine ⟨fun xs hl _ => ?_, main⟩
  obtain ⟨lo, hi, x, y, E, h1, h2, h3, h4, -⟩ := main xs hl
  exact ⟨lo, hi, E, x, y, h1, h2, h3, h4⟩

/-- C192: `MinMaxN` makes `⌊n/2⌋` comparisons more than needed, whatever the elements and their order are. -/
theorem C192_library [GoOrd T] (a : List T) (h : a ≠ []) : ∃ t, Looks (minMaxNLooks a) (minMaxN a) t ∧ comparisons t = ((3 * a.length + 1) / 2 - 2) + a.length / 2 := by
  obtain ⟨-, -, ⟨t, e, ht⟩⟩ := C168_extremes a h
  refine ⟨_, e, ?_⟩
  have h0 : 0 < a.length := List.length_pos_iff.2 h
  have h1 : comparisons (.a 0 :: .a 0 :: t) = 2 * (a.length - 1) := by
    have := ht.tests
    simpa [comparisons, Look.isRead] using this
  rw [h1]
  omega

/-- Four elements: `MinMaxN` makes six comparisons, four are enough, the hypothesis of `C192_least` can be met. -/
example : (match minMaxNLooks [3, 1, 4, 2] ([] : List (Look Int)) with
    | .ok r t => some (r, comparisons t)
    | _ => none) = some ((1, 4), 6) ∧
    ((minMaxPairs 4).run intLess [3, 1, 4, 2]).map (fun q => (q.1, q.2.length)) = some ((1, 2), 4) ∧
    (minMaxPairs 4).FindsBoth 4 := ⟨by decide +kernel, by decide +kernel, (C192_enough 4 (by decide)).1⟩

end Stl4go
