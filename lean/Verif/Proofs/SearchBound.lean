import Verif.Spec.SearchBound
import Verif.Proofs.Callback
/-! # Lemmas: how many comparisons a search takes -/
namespace Stl4go
variable {T : Type} {a : Sl}

/-- The two searches, for the question `g` that sends them to the right; with the number of questions. -/
def bisect (g : Nat → Bool) : (fuel loc count : Nat) → Nat × Nat
  | 0, loc, _ => (loc, 0)
  | f + 1, loc, count =>
    if count > 0 then
      let q := if g (loc + count / 2) then bisect g f (loc + count / 2 + 1) (count - (count / 2 + 1)) else bisect g f loc (count / 2)
      (q.1, q.2 + 1)
    else (loc, 0)

theorem CS.on_get' {i : Nat} (hi : i < a.len) (s : CS T Nat) : CS.on (a.get (i : Int)) s = .ok (s.mem.cell (a.off + i)) s := by
  simp only [CS.on, Sl.get]
  rw [if_pos (by omega)]
  simp

theorem lower_bisect (l : T → T → Bool) (v : T) (m : Mem T) : ∀ (f loc count t : Nat), count < f → loc + count ≤ a.len →
    lowerBoundFuncLoopE a v (countedCmp l) f loc count ⟨m, t⟩ =
      .ok (bisect (fun i => l (m.cell (a.off + i)) v) f loc count).1 ⟨m, t + (bisect (fun i => l (m.cell (a.off + i)) v) f loc count).2⟩ := by
  intro f
  induction f with
  | zero => intro loc count t h; omega
  | succ f ih =>
    intro loc count t h1 h2
    unfold lowerBoundFuncLoopE bisect
    by_cases hc : count > 0
    · rw [if_pos hc, if_pos hc]
      simp only [GoM.bind_def]
      rw [CS.on_get' (by omega)]
      simp only [countedCmp]
      cases l (m.cell (a.off + (loc + count / 2))) v with
      | true =>
        simp only [if_true]
        have e := ih (loc + count / 2 + 1) (count - (count / 2 + 1)) (t + 1) (by omega) (by omega)
        rw [Nat.add_assoc t, Nat.add_comm 1] at e
        exact e
      | false =>
        simp only [Bool.false_eq_true, if_false]
        have e := ih loc (count / 2) (t + 1) (by omega) (by omega)
        rw [Nat.add_assoc t, Nat.add_comm 1] at e
        exact e
    · rw [if_neg hc, if_neg hc]; rfl

theorem upper_bisect (l : T → T → Bool) (v : T) (m : Mem T) : ∀ (f loc count t : Nat), count < f → loc + count ≤ a.len →
    upperBoundFuncLoopE a v (countedCmp l) f loc count ⟨m, t⟩ =
      .ok (bisect (fun i => !l v (m.cell (a.off + i))) f loc count).1 ⟨m, t + (bisect (fun i => !l v (m.cell (a.off + i))) f loc count).2⟩ := by
  intro f
  induction f with
  | zero => intro loc count t h; omega
  | succ f ih =>
    intro loc count t h1 h2
    unfold upperBoundFuncLoopE bisect
    by_cases hc : count > 0
    · rw [if_pos hc, if_pos hc]
      simp only [GoM.bind_def]
      rw [CS.on_get' (by omega)]
      simp only [countedCmp]
      cases l v (m.cell (a.off + (loc + count / 2))) with
      | false =>
        simp only [if_true, Bool.not_false]
        have e := ih (loc + count / 2 + 1) (count - (count / 2 + 1)) (t + 1) (by omega) (by omega)
        rw [Nat.add_assoc t, Nat.add_comm 1] at e
        exact e
      | true =>
        simp only [Bool.not_true, Bool.false_eq_true, if_false, Bool.true_eq_false]
        have e := ih loc (count / 2) (t + 1) (by omega) (by omega)
        rw [Nat.add_assoc t, Nat.add_comm 1] at e
        exact e
    · rw [if_neg hc, if_neg hc]; rfl

/-! ## Logarithms -/

theorem log2_mono' {a b : Nat} (h : a ≤ b) : Nat.log2 a ≤ Nat.log2 b := by
  by_cases h0 : a = 0
  · subst h0; exact Nat.zero_le _
  · exact (Nat.le_log2 (by omega)).2 (Nat.le_trans (Nat.log2_self_le h0) h)

theorem log2_halved {n : Nat} (h : 2 ≤ n) : Nat.log2 n = Nat.log2 (n / 2) + 1 := by
  rw [Nat.log2_def, if_pos h]

theorem mostCalls_mono {a b : Nat} (h : a ≤ b) : mostCalls a ≤ mostCalls b := by
  unfold mostCalls
  have := log2_mono' h
  split <;> split <;> omega

theorem mostCalls_half {n : Nat} (h : 0 < n) : mostCalls n = mostCalls (n / 2) + 1 := by
  unfold mostCalls
  rw [if_neg (by omega)]
  by_cases h1 : n = 1
  · subst h1; rfl
  · rw [if_neg (by omega), log2_halved (by omega)]

theorem least_half {n : Nat} (h : 0 < n) : Nat.log2 (n + 1) = Nat.log2 (n - (n / 2 + 1) + 1) + 1 := by
  rw [log2_halved (by omega)]
  congr 2
  omega

/-! ## Bounds -/

theorem bisect_bounds (g : Nat → Bool) : ∀ (f loc count : Nat), count < f →
    Nat.log2 (count + 1) ≤ (bisect g f loc count).2 ∧ (bisect g f loc count).2 ≤ mostCalls count := by
  intro f
  induction f with
  | zero => intro loc count h; omega
  | succ f ih =>
    intro loc count h
    unfold bisect
    by_cases hc : count > 0
    · rw [if_pos hc, least_half hc, mostCalls_half hc]
      dsimp only
      have h1 := ih (loc + count / 2 + 1) (count - (count / 2 + 1)) (by omega)
      have h2 := ih loc (count / 2) (by omega)
      have h3 := mostCalls_mono (show count - (count / 2 + 1) ≤ count / 2 by omega)
      have h4 := log2_mono' (show count - (count / 2 + 1) + 1 ≤ count / 2 + 1 by omega)
      split <;> omega
    · rw [if_neg hc]
      have : count = 0 := by omega
      subst this
      exact ⟨Nat.le_refl _, Nat.le_refl _⟩

theorem bisect_left (g : Nat → Bool) : ∀ (f loc count : Nat), count < f → (∀ i, loc ≤ i → i < loc + count → g i = false) → (bisect g f loc count).2 = mostCalls count := by
  intro f
  induction f with
  | zero => intro loc count h; omega
  | succ f ih =>
    intro loc count h hg
    unfold bisect
    by_cases hc : count > 0
    · rw [if_pos hc, mostCalls_half hc]
      dsimp only
      rw [hg (loc + count / 2) (by omega) (by omega)]
      simp only [Bool.false_eq_true, if_false]
      rw [ih loc (count / 2) (by omega) (fun i h1 h2 => hg i h1 (by omega))]
    · rw [if_neg hc]
      have : count = 0 := by omega
      subst this
      rfl

theorem bisect_right (g : Nat → Bool) : ∀ (f loc count : Nat), count < f → (∀ i, loc ≤ i → i < loc + count → g i = true) → (bisect g f loc count).2 = Nat.log2 (count + 1) := by
  intro f
  induction f with
  | zero => intro loc count h; omega
  | succ f ih =>
    intro loc count h hg
    unfold bisect
    by_cases hc : count > 0
    · rw [if_pos hc, least_half hc]
      dsimp only
      rw [hg (loc + count / 2) (by omega) (by omega)]
      simp only [if_true]
      rw [ih (loc + count / 2 + 1) (count - (count / 2 + 1)) (by omega) (fun i h1 h2 => hg i (by omega) (by omega))]
    · rw [if_neg hc]
      have : count = 0 := by omega
      subst this
      rfl

/-! ## Any search -/

theorem length_filter_split {α : Type} (q : α → Bool) : ∀ S : List α, S.length = (S.filter q).length + (S.filter (fun x => !q x)).length
  | [] => rfl
  | x :: S => by
    have := length_filter_split q S
    simp only [List.filter_cons, List.length_cons]
    cases q x <;> simp <;> omega

/-- A search that asks at most `d` questions finds at most `2^d` different positions. -/
theorem SearchProg.few_results (l : T → T → Bool) (xs : List T) (p : SearchProg) : ∀ (d : Nat) (S : List T) (r : T → Nat), (S.map r).Nodup →
    (∀ v ∈ S, ∃ c, p.run l xs v = some (r v, c) ∧ c ≤ d) → S.length ≤ 2 ^ d := by
  induction p with
  | found r0 =>
    intro d S r hn h
    have h1 : ∀ v ∈ S, r v = r0 := fun v hv => by
      obtain ⟨c, e, -⟩ := h v hv
      cases e; rfl
    have h2 : S.length ≤ 1 := by
      match S, hn, h1 with
      | [], _, _ => simp
      | [_], _, _ => simp
      | x :: y :: S, hn, h1 =>
        have hx := h1 x (by simp)
        have hy := h1 y (by simp)
        simp only [List.map_cons, List.nodup_cons, List.mem_cons] at hn
        exact absurd (Or.inl (by rw [hx, hy])) hn.1
    exact Nat.le_trans h2 Nat.one_le_two_pow
  | ask x y k ih =>
    intro d S r hn h
    let q : T → Bool := fun v => match x.elim (some v) (xs[·]?), y.elim (some v) (xs[·]?) with
      | some a, some b => l a b
      | _, _ => false
    have hcase : ∀ v ∈ S, ∃ c, (k (q v)).run l xs v = some (r v, c) ∧ c + 1 ≤ d := by
      intro v hv
      obtain ⟨c, e, hc⟩ := h v hv
      simp only [SearchProg.run] at e
      cases e1 : x.elim (some v) (xs[·]?) <;> cases e2 : y.elim (some v) (xs[·]?) <;> simp only [e1, e2] at e
      · cases e
      · cases e
      · cases e
      · rename_i u w
        have hq : q v = l u w := by simp only [q, e1, e2]
        rw [hq]
        obtain ⟨⟨r', c'⟩, e3, e4⟩ := Option.map_eq_some_iff.1 e
        injection e4 with e5 e6
        simp only at e5 e6
        exact ⟨c', by rw [e3, e5], by omega⟩
    cases S with
    | nil => simp
    | cons x0 S0 =>
    generalize hS : x0 :: S0 = S at *
    have hd : 0 < d := by
      obtain ⟨_, _, h5⟩ := hcase x0 (by rw [← hS]; simp)
      omega
    have sub : ∀ f : T → Bool, ((S.filter f).map r).Nodup := fun f => (List.filter_sublist.map r).nodup hn
    have h1 := ih true (d - 1) (S.filter q) r (sub _) fun v hv => by
      obtain ⟨hv, hq⟩ := List.mem_filter.1 hv
      obtain ⟨c, e, hc⟩ := hcase v hv
      rw [hq] at e
      exact ⟨c, e, by omega⟩
    have h2 := ih false (d - 1) (S.filter (fun v => !q v)) r (sub _) fun v hv => by
      obtain ⟨hv, hq⟩ := List.mem_filter.1 hv
      obtain ⟨c, e, hc⟩ := hcase v hv
      rw [show q v = false by simpa using hq] at e
      exact ⟨c, e, by omega⟩
    have h3 : 2 ^ d = 2 ^ (d - 1) + 2 ^ (d - 1) := by
      obtain ⟨e, rfl⟩ := Nat.exists_eq_succ_of_ne_zero (show d ≠ 0 by omega)
      simp [Nat.pow_succ, Nat.mul_two]
    rw [length_filter_split q S, h3]
    omega

/-- 1, 3, 5, ... -/
def odds (n : Nat) : List Int := (List.range n).map fun i : Nat => 2 * (i : Int) + 1

theorem odds_ascending (n : Nat) : (odds n).Pairwise (· < ·) := by
  rw [odds, List.pairwise_map]
  exact List.pairwise_lt_range.imp (by intro a b h; omega)

theorem odds_count (n : Nat) : ∀ c, c ≤ n → (odds n).countP (fun x => decide (x < 2 * (c : Int))) = c := by
  induction n with
  | zero => intro c h; have : c = 0 := by omega
            subst this; rfl
  | succ n ih =>
    intro c h
    have e : odds (n + 1) = odds n ++ [2 * (n : Int) + 1] := by simp [odds, List.range_succ]
    rw [e, List.countP_append]
    by_cases hc : c = n + 1
    · subst hc
      have h1 : (odds n).countP (fun x => decide (x < 2 * ((n + 1 : Nat) : Int))) = n := by
        have : (odds n).countP (fun x => decide (x < 2 * ((n + 1 : Nat) : Int))) = (odds n).length := by
          rw [List.countP_eq_length]
          intro x hx
          obtain ⟨i, hi, rfl⟩ := List.mem_map.1 hx
          have := List.mem_range.1 hi
          simp only [decide_eq_true_eq]; omega
        rw [this]; simp [odds]
      rw [h1, List.countP_singleton, if_pos (by simp only [decide_eq_true_eq]; omega)]
    · rw [ih c (by omega), List.countP_singleton, if_neg (by simp only [decide_eq_true_eq]; omega), Nat.add_zero]

theorem SearchProg.worst {p : SearchProg} {n : Nat} (hall : ∀ c, c ≤ n → ∃ k, p.run (fun x y => decide (x < y)) (odds n) (2 * (c : Int)) = some (c, k)) :
    ∃ c k, c ≤ n ∧ p.run (fun x y => decide (x < y)) (odds n) (2 * (c : Int)) = some (c, k) ∧ n + 1 ≤ 2 ^ k := by
  -- the greatest number of questions
  have hmax : ∀ m, m ≤ n → ∃ c k, c ≤ m ∧ p.run (fun x y => decide (x < y)) (odds n) (2 * (c : Int)) = some (c, k) ∧
      ∀ c', c' ≤ m → ∃ k', p.run (fun x y => decide (x < y)) (odds n) (2 * (c' : Int)) = some (c', k') ∧ k' ≤ k := by
    intro m
    induction m with
    | zero =>
      intro _
      obtain ⟨k, e⟩ := hall 0 (Nat.zero_le _)
      refine ⟨0, k, Nat.le_refl _, e, fun c' hc' => ?_⟩
      have : c' = 0 := by omega
      subst this
      exact ⟨k, e, Nat.le_refl _⟩
    | succ m ih =>
      intro hm
      obtain ⟨c, k, hc, e, hk⟩ := ih (by omega)
      obtain ⟨k2, e2⟩ := hall (m + 1) hm
      by_cases hkk : k ≤ k2
      · refine ⟨m + 1, k2, Nat.le_refl _, e2, fun c' hc' => ?_⟩
        by_cases h0 : c' = m + 1
        · subst h0; exact ⟨k2, e2, Nat.le_refl _⟩
        · obtain ⟨k', e', h'⟩ := hk c' (by omega)
          exact ⟨k', e', by omega⟩
      · refine ⟨c, k, by omega, e, fun c' hc' => ?_⟩
        by_cases h0 : c' = m + 1
        · subst h0; exact ⟨k2, e2, by omega⟩
        · exact hk c' (by omega)
  obtain ⟨c, k, hc, e, hk⟩ := hmax n (Nat.le_refl _)
  refine ⟨c, k, hc, e, ?_⟩
  have := SearchProg.few_results (fun x y => decide (x < y)) (odds n) p k ((List.range (n + 1)).map fun i : Nat => 2 * (i : Int)) (fun v => (v / 2).toNat) (by
      rw [List.map_map]
      have : (List.range (n + 1)).map ((fun v : Int => (v / 2).toNat) ∘ fun i : Nat => 2 * (i : Int)) = List.range (n + 1) := by
        conv => rhs; rw [← List.map_id (List.range (n + 1))]
        apply List.map_congr_left
        intro i _
        simp only [Function.comp, id]
        omega
      rw [this]
      exact List.nodup_range) (fun v hv => by
      obtain ⟨i, hi, rfl⟩ := List.mem_map.1 hv
      obtain ⟨k', e', h'⟩ := hk i (by have := List.mem_range.1 hi; omega)
      refine ⟨k', ?_, h'⟩
      rw [e', show (2 * (i : Int) / 2).toNat = i by omega])
  simpa using this

/-! ## The search of `LowerBoundFunc` as a program -/

theorem lowerBoundProg_run (l : T → T → Bool) (xs : List T) (v : T) (g : Nat → Bool) (hg : ∀ i x, xs[i]? = some x → g i = l x v) : ∀ (f loc count : Nat), count < f →
    loc + count ≤ xs.length → (lowerBoundProg f loc count).run l xs v = some (bisect g f loc count) := by
  intro f
  induction f with
  | zero => intro loc count h; omega
  | succ f ih =>
    intro loc count h1 h2
    unfold lowerBoundProg bisect
    by_cases hc : count > 0
    · rw [if_pos hc, if_pos hc]
      have hx : xs[loc + count / 2]? = some xs[loc + count / 2] := List.getElem?_eq_getElem (by omega)
      simp only [SearchProg.run, Option.elim, hx]
      rw [← hg _ _ hx]
      cases g (loc + count / 2) with
      | true =>
        simp only [if_true]
        rw [ih _ _ (by omega) (by omega)]; rfl
      | false =>
        simp only [Bool.false_eq_true, if_false]
        rw [ih _ _ (by omega) (by omega)]; rfl
    · rw [if_neg hc, if_neg hc]; rfl

theorem bisect_finds (g : Nat → Bool) (c : Nat) (hg : ∀ i, g i = decide (i < c)) : ∀ (f loc count : Nat), count < f → loc ≤ c → c ≤ loc + count → (bisect g f loc count).1 = c := by
  intro f
  induction f with
  | zero => intro loc count h; omega
  | succ f ih =>
    intro loc count h1 h2 h3
    unfold bisect
    by_cases hc : count > 0
    · rw [if_pos hc]
      by_cases h : loc + count / 2 < c
      · simp only [hg, h, decide_true, if_true]
        exact ih _ _ (by omega) (by omega) (by omega)
      · simp only [hg, h, decide_false, Bool.false_eq_true, if_false]
        exact ih _ _ (by omega) (by omega) (by omega)
    · rw [if_neg hc]; show loc = c; omega

theorem ascending_place (v : Int) : ∀ (xs : List Int), xs.Pairwise (· < ·) → ∀ i x, xs[i]? = some x → (x < v ↔ i < xs.countP (fun x => decide (x < v)))
  | [], _, i, x, h => by simp at h
  | y :: ys, hp, i, x, h => by
    obtain ⟨h1, h2⟩ := List.pairwise_cons.1 hp
    rw [List.countP_cons]
    by_cases hy : y < v
    · rw [if_pos (by simpa using hy)]
      cases i with
      | zero =>
        have : y = x := by simpa using h
        subst this
        exact ⟨fun _ => by omega, fun _ => hy⟩
      | succ i =>
        have := ascending_place v ys h2 i x (by simpa using h)
        rw [this]; omega
    · have h0 : ys.countP (fun x => decide (x < v)) = 0 := by
        rw [List.countP_eq_zero]
        intro z hz
        have := h1 z hz
        simp only [decide_eq_true_eq]; omega
      rw [if_neg (by simpa using hy), h0]
      refine ⟨fun hx => ?_, fun h => by omega⟩
      exfalso
      cases i with
      | zero =>
        have : y = x := by simpa using h
        omega
      | succ i =>
        have hm : x ∈ ys := List.mem_of_getElem? (by simpa using h)
        have := h1 x hm
        omega

theorem lowerBoundProg_finds (n : Nat) (xs : List Int) (v : Int) (hl : xs.length = n) (ha : xs.Pairwise (· < ·)) :
    ∃ c, (lowerBoundProg (n + 1) 0 n).run (fun x y => decide (x < y)) xs v = some (xs.countP (fun x => decide (x < v)), c) ∧ c ≤ mostCalls n := by
  have e := lowerBoundProg_run (fun x y => decide (x < y)) xs v (fun i => decide (i < xs.countP (fun x => decide (x < v))))
    (fun i x h => by
      have := ascending_place v xs ha i x h
      by_cases hx : x < v
      · simp only [hx, this.1 hx, decide_true]
      · have : ¬ i < xs.countP (fun x => decide (x < v)) := fun h => hx (this.2 h)
        simp only [hx, this, decide_false]) (n + 1) 0 n (by omega) (by omega)
  have e2 := bisect_finds (fun i => decide (i < xs.countP (fun x => decide (x < v)))) _ (fun _ => rfl) (n + 1) 0 n (by omega) (Nat.zero_le _)
    (by have := List.countP_le_length (p := fun x => decide (x < v)) (l := xs); omega)
  have e3 := (bisect_bounds (fun i => decide (i < xs.countP (fun x => decide (x < v)))) (n + 1) 0 n (by omega)).2
  revert e e2 e3
  generalize bisect (fun i => decide (i < xs.countP (fun x => decide (x < v)))) (n + 1) 0 n = q
  intro e e2 e3
  exact ⟨q.2, by rw [e, ← e2], e3⟩

end Stl4go
