import Mathlib.Algebra.Order.Field.Rat
import Mathlib.Algebra.Order.Ring.Pow
import Mathlib.Algebra.Order.Field.Power
import Mathlib.Data.Nat.Cast.Order.Field
import Mathlib.Tactic.Linarith
import Mathlib.Tactic.FieldSimp
import Mathlib.Tactic.NormNum
import Mathlib.Tactic.Positivity
import Mathlib.Tactic.Ring
import Verif.Proofs.SkipListCost
/-!
# Rare long searches

The average of `(3/2) ^ p` over all sequences of words, where `p` is the number of nodes passed, is at most `4 ^ L / 3`. Going back from
the key, the next node passed is at least as high as the last one; given this it is higher in half of the cases, and there are only `L`
levels.
-/
namespace Stl4go
open Finset
variable {K V τ : Type} {cmp : CmpM K τ} {c : K → K → Int} {n : Nat}

/-- Nodes not lower than all nodes before them in the list nor than `m`. -/
def recs : Nat → List Nat → Nat
  | _, [] => 0
  | m, y :: ys => if m ≤ y then 1 + recs y ys else recs m ys

theorem recs_snoc (y : Nat) (a : List Nat) : ∀ m, recs m (a ++ [y]) = recs m a + if m ≤ y ∧ ∀ x ∈ a, x ≤ y then 1 else 0 := by
  induction a with
  | nil => intro m; simp [recs]
  | cons z a ih =>
    intro m
    simp only [List.cons_append, recs, ih, List.forall_mem_cons]
    split
    · next h =>
      rw [Nat.add_assoc]
      congr 2
      exact if_congr ⟨fun ⟨p, q⟩ => ⟨by omega, p, q⟩, fun ⟨_, p, q⟩ => ⟨p, q⟩⟩ rfl rfl
    · next h =>
      congr 1
      exact if_congr ⟨fun ⟨p, q⟩ => ⟨p, by omega, q⟩, fun ⟨p, _, q⟩ => ⟨p, q⟩⟩ rfl rfl

theorem recs_one {ys : List Nat} (h : ∀ y ∈ ys, 1 ≤ y) : recs 1 ys = recs 0 ys := by
  cases ys with
  | nil => rfl
  | cons y ys => simp [recs, h y (by simp)]

theorem passes_recs (ys : List Nat) : passes ys = recs 0 ys.reverse := by
  induction ys with
  | nil => rfl
  | cons y ys ih =>
    rw [List.reverse_cons, recs_snoc, passes, ih, Nat.add_comm]
    simp

theorem sum_swap {ι β : Type} [Fintype ι] [DecidableEq ι] [Fintype β] (i : ι) (G : β → (ι → β) → ℚ)
    (h : ∀ w v ws, G w (Function.update ws i v) = G w ws) : (Fintype.card β : ℚ) * ∑ ws, G (ws i) ws = ∑ w, ∑ ws, G w ws := by
  have h1 : ∑ x : β × (ι → β), G (x.2 i) x.2 = ∑ x : β × (ι → β), G x.1 x.2 := by
    refine sum_nbij' (fun x => (x.2 i, Function.update x.2 i x.1)) (fun x => (x.2 i, Function.update x.2 i x.1)) ?_ ?_ ?_ ?_ ?_
    · intro x _; exact mem_univ _
    · intro x _; exact mem_univ _
    · intro x _; simp
    · intro x _; simp
    · intro x _; exact (h _ _ _).symm
  rw [Fintype.sum_prod_type, Fintype.sum_prod_type] at h1
  simp only [sum_const, card_univ, nsmul_eq_mul] at h1
  exact h1

/-- Words are independent: the word of one operation can be drawn anew. -/
theorem sum_redraw (i : Fin n) (G : Fin (2 ^ 64) → Words n → ℚ) (h : ∀ w v ws, G w (Function.update ws i v) = G w ws) :
    (2 ^ 64) * ∑ ws, G (ws i) ws = ∑ w, ∑ ws, G w ws := by
  have := sum_swap i G h
  rw [Fintype.card_fin] at this
  rw [← this]
  norm_num

/-- The nodes that could not have become higher than `m`. -/
def closedAt (m : Nat) (src : List (Fin n × Nat)) : Nat := (src.filter fun s => ¬ LevelOpen s.2 (m + 1)).length

theorem pow_closed {m k : Nat} (h : 4 * k ≤ 2 ^ m) : (1 + 1 / 2 ^ m : ℚ) ^ k ≤ 4 / 3 := by
  have hx : (0 : ℚ) < 2 ^ m := by positivity
  have hk : (4 * k : ℚ) ≤ 2 ^ m := by exact_mod_cast h
  have hx1 : (1 : ℚ) / 2 ^ m ≤ 1 := by rw [div_le_one hx]; exact one_le_pow₀ (by norm_num)
  have hx0 : (0 : ℚ) < 1 / 2 ^ m := by positivity
  have hkx : k * (1 / 2 ^ m : ℚ) ≤ 1 / 4 := by
    rw [mul_one_div, div_le_div_iff₀ hx (by norm_num)]; linarith
  generalize (1 / 2 ^ m : ℚ) = x at *
  have b := one_add_mul_le_pow (a := -x) (by linarith) k
  have e : (1 + x) ^ k * (1 + -x) ^ k ≤ 1 := by
    rw [← mul_pow]
    exact pow_le_one₀ (by nlinarith) (by nlinarith)
  have p : 0 ≤ (1 + x) ^ k := by positivity
  nlinarith

theorem levelFor_mono {len l l' : Nat} (h : LevelOpen len l') (hl : l ≤ l') : LevelOpen len l := by
  unfold LevelOpen at *
  rcases h with h | ⟨h1, h2⟩
  · exact .inl (by omega)
  · exact .inr ⟨by omega, Nat.le_trans (Nat.pow_le_pow_right (by omega) (by omega)) h2⟩

theorem card_levelFor {len l : Nat} (h1 : 1 ≤ l) (ho : LevelOpen len l) :
    (univ.filter fun w : Fin (2 ^ 64) => l ≤ levelFor w len).card = 2 ^ (65 - l) := by
  have hl : l ≤ 40 := by unfold LevelOpen at ho; omega
  simp only [levelFor_iff h1, ho, and_true]
  rw [card_low (by omega)]
  congr 1; omega

theorem card_levelFor_le (len : Nat) {l : Nat} (h1 : 1 ≤ l) : (univ.filter fun w : Fin (2 ^ 64) => l ≤ levelFor w len).card ≤ 2 ^ (65 - l) := by
  by_cases ho : LevelOpen len l
  · exact (card_levelFor h1 ho).le
  · simp [levelFor_iff h1, ho]

theorem levelOf_update {i : Fin n} {src : List (Fin n × Nat)} (h : i ∉ src.map Prod.fst) (v : Fin (2 ^ 64)) (ws : Words n) :
    src.map (levelOf (Function.update ws i v)) = src.map (levelOf ws) := by
  refine List.map_congr_left fun s hs => ?_
  have : s.1 ≠ i := fun e => h (e ▸ List.mem_map_of_mem hs)
  simp [levelOf, this]

theorem sum_recs {L : Nat} (src : List (Fin n × Nat)) (hd : (src.map Prod.fst).Nodup) (hL : L ≤ 40)
    (hle : ∀ ws : Words n, ∀ s ∈ src, levelOf ws s ≤ L) (few : ∀ l, l ≤ L → 4 * closedAt l src ≤ 2 ^ l) : ∀ m, 1 ≤ m → m ≤ L →
    ∑ ws : Words n, (3 / 2 : ℚ) ^ recs m (src.map (levelOf ws)) ≤ (2 ^ 64) ^ n * 4 ^ (L - m) * (1 + 1 / 2 ^ m) ^ closedAt m src := by
  induction src with
  | nil =>
    intro m _ _
    simp only [List.map_nil, recs, pow_zero, sum_const, card_univ, card_words, closedAt, List.filter_nil, List.length_nil, mul_one, nsmul_eq_mul]
    rw [show (((2 ^ 64) ^ n : Nat) : ℚ) = (2 ^ 64) ^ n by norm_cast]
    exact le_mul_of_one_le_right (by positivity) (one_le_pow₀ (by norm_num))
  | cons s src ih =>
    intro m hm hmL
    rw [List.map_cons, List.nodup_cons] at hd
    have hmono : ∀ l, closedAt l src ≤ closedAt l (s :: src) := fun l => ((List.sublist_cons_self s src).filter _).length_le
    have few' : ∀ l, l ≤ L → 4 * closedAt l src ≤ 2 ^ l := fun l h => le_trans (Nat.mul_le_mul_left 4 (hmono l)) (few l h)
    have ih := ih hd.2 (fun ws x hx => hle ws x (by simp [hx])) few'
    obtain ⟨i, len⟩ := s
    have hlv : ∀ w : Fin (2 ^ 64), levelFor w len ≤ L := fun w => hle (fun _ => w) (i, len) (by simp)
    generalize hT : ((2 ^ 64) ^ n * 4 ^ (L - m) * (1 + 1 / 2 ^ m) ^ closedAt m src : ℚ) = T at *
    have hT0 : 0 ≤ T := by rw [← hT]; positivity
    have hTm := ih m hm hmL
    rw [hT] at hTm
    have hr := sum_redraw i (fun w ws => (3 / 2 : ℚ) ^ (if m ≤ levelFor w len then 1 + recs (levelFor w len) (src.map (levelOf ws))
      else recs m (src.map (levelOf ws)))) (fun w v ws => by simp only [levelOf_update hd.1])
    -- one word
    have one : ∀ w : Fin (2 ^ 64), ∑ ws : Words n, (3 / 2 : ℚ) ^ (if m ≤ levelFor w len then 1 + recs (levelFor w len) (src.map (levelOf ws))
        else recs m (src.map (levelOf ws))) ≤
        T * (1 + 1 / 2 * (if m ≤ levelFor w len then 1 else 0) - (if m + 1 ≤ levelFor w len then 1 else 0)) := by
      intro w
      by_cases h1 : m ≤ levelFor w len
      · simp only [h1, if_true, pow_add, pow_one, ← mul_sum]
        by_cases h2 : m + 1 ≤ levelFor w len
        · simp only [h2, if_true]
          have h3 := ih (levelFor w len) (by omega) (hlv w)
          have h4 := pow_closed (few' _ (hlv w))
          have h5 : (4 : ℚ) ^ (L - levelFor w len) * 4 ≤ 4 ^ (L - m) := by
            rw [← pow_succ]
            exact pow_le_pow_right₀ (by norm_num) (by have := hlv w; omega)
          have h6 : (1 : ℚ) ≤ (1 + 1 / 2 ^ m) ^ closedAt m src := one_le_pow₀ (by have : (0 : ℚ) < 1 / 2 ^ m := by positivity
                                                                                  linarith)
          have h7 : (2 ^ 64) ^ n * 4 ^ (L - m) ≤ T := by
            rw [← hT]
            exact le_mul_of_one_le_right (by positivity) h6
          have h8 : (2 ^ 64) ^ n * 4 ^ (L - levelFor w len) * (1 + 1 / 2 ^ levelFor w len : ℚ) ^ closedAt (levelFor w len) src ≤
              (2 ^ 64) ^ n * 4 ^ (L - levelFor w len) * (4 / 3) := mul_le_mul_of_nonneg_left h4 (by positivity)
          have h9 : ((2 : ℚ) ^ 64) ^ n * (4 ^ (L - levelFor w len) * 4) ≤ (2 ^ 64) ^ n * 4 ^ (L - m) :=
            mul_le_mul_of_nonneg_left h5 (by positivity)
          generalize ((2 : ℚ) ^ 64) ^ n = X at *
          linarith
        · simp only [h2, if_false]
          have e : levelFor w len = m := by omega
          rw [e]
          linarith
      · have h2 : ¬ m + 1 ≤ levelFor w len := by omega
        simp only [h1, h2, if_false]
        linarith
    have tot := sum_le_sum fun w (_ : w ∈ (univ : Finset (Fin (2 ^ 64)))) => one w
    rw [← hr, ← mul_sum, sum_sub_distrib, sum_add_distrib, ← mul_sum, sum_boole, sum_boole, sum_const, card_univ, Fintype.card_fin] at tot
    have goal : ∀ R : ℚ, T * (2 ^ 64 + 1 / 2 * ((univ.filter fun w : Fin (2 ^ 64) => m ≤ levelFor w len).card : ℚ) -
        ((univ.filter fun w : Fin (2 ^ 64) => m + 1 ≤ levelFor w len).card : ℚ)) ≤ 2 ^ 64 * R →
        ∑ ws : Words n, (3 / 2 : ℚ) ^ recs m (((i, len) :: src).map (levelOf ws)) ≤ R := by
      intro R hR
      have e : ((2 ^ 64) • (1 : ℚ)) = 2 ^ 64 := by rw [nsmul_eq_mul]; norm_num
      rw [e] at tot
      have : (2 ^ 64 : ℚ) * ∑ ws : Words n, (3 / 2 : ℚ) ^ recs m (((i, len) :: src).map (levelOf ws)) ≤ 2 ^ 64 * R := le_trans tot hR
      exact le_of_mul_le_mul_left this (by positivity)
    apply goal
    have e2 : (2 ^ (65 - m) : ℚ) = 2 ^ 64 * (1 / 2 ^ m) * 2 := by
      rw [mul_one_div, div_mul_eq_mul_div, eq_div_iff (by positivity), ← pow_add, ← pow_succ]
      congr 1; omega
    by_cases ho : LevelOpen len (m + 1)
    · have hc : closedAt m ((i, len) :: src) = closedAt m src := by simp [closedAt, ho]
      rw [hc, hT, card_levelFor hm (levelFor_mono ho (by omega)), card_levelFor (by omega) ho]
      have e3 : (2 ^ (65 - m) : ℚ) = 2 ^ (65 - (m + 1)) * 2 := by rw [← pow_succ]; congr 1; omega
      rw [Nat.cast_pow, Nat.cast_pow, Nat.cast_ofNat, e3]
      generalize (2 : ℚ) ^ (65 - (m + 1)) = Y
      apply le_of_eq; ring
    · have hc : closedAt m ((i, len) :: src) = closedAt m src + 1 := by simp [closedAt, ho]
      rw [hc, pow_succ (1 + 1 / 2 ^ m : ℚ), ← mul_assoc ((2 ^ 64) ^ n * 4 ^ (L - m) : ℚ), hT]
      have h1 : ((univ.filter fun w : Fin (2 ^ 64) => m ≤ levelFor w len).card : ℚ) ≤ 2 ^ 64 * (1 / 2 ^ m) * 2 := by
        rw [← e2]
        exact_mod_cast card_levelFor_le len hm
      have h2 : (0 : ℚ) ≤ ((univ.filter fun w : Fin (2 ^ 64) => m + 1 ≤ levelFor w len).card : ℚ) := Nat.cast_nonneg _
      calc _ ≤ T * (2 ^ 64 + 1 / 2 * (2 ^ 64 * (1 / 2 ^ m) * 2) - 0) := mul_le_mul_of_nonneg_left (by linarith) hT0
        _ = _ := by ring

theorem closedAt_few {src : List (Fin n × Nat)} (few : ∀ T, (src.filter (fun s => s.2 < T)).length ≤ T) (hlen : src.length ≤ 2 ^ 38)
    {l : Nat} (hl : l ≤ 40) : 4 * closedAt l src ≤ 2 ^ l := by
  rcases Nat.lt_or_ge l 3 with h3 | h3
  · have : closedAt l src = 0 := by
      simp only [closedAt, List.length_eq_zero_iff, List.filter_eq_nil_iff]
      intro s _
      simp only [decide_eq_true_eq, not_not]
      exact .inl (by omega)
    rw [this]; exact Nat.zero_le _
  · rcases Nat.lt_or_ge l 40 with h4 | h4
    · have h1 : closedAt l src ≤ (src.filter (fun s => s.2 < 2 ^ (l - 2))).length := by
        refine (List.monotone_filter_right src (fun s hs => ?_)).length_le
        simp only [decide_eq_true_eq, LevelOpen, not_or, not_and] at hs ⊢
        have := hs.2 (by omega)
        rw [show l + 1 - 3 = l - 2 by omega] at this
        omega
      have h2 := few (2 ^ (l - 2))
      have e : 2 ^ l = 4 * 2 ^ (l - 2) := by rw [show 4 = 2 ^ 2 from rfl, ← pow_add]; congr 1; omega
      omega
    · have e : l = 40 := by omega
      subst e
      have : closedAt 40 src ≤ src.length := List.length_filter_le _ _
      omega

/-- Few sequences of words let a search pass `t` nodes. -/
theorem card_passes (src : List (Fin n × Nat)) (hd : (src.map Prod.fst).Nodup)
    (few : ∀ T, (src.filter (fun s => s.2 < T)).length ≤ T) (hlen : src.length ≤ 2 ^ 38) {L : Nat} (hL : L ≤ 40) (hL1 : 1 ≤ L)
    (hle : ∀ ws : Words n, ∀ s ∈ src, levelOf ws s ≤ L) (t : Nat) :
    3 ^ (t + 1) * (univ.filter fun ws : Words n => t ≤ passes (src.map (levelOf ws))).card ≤ 2 ^ t * 4 ^ L * (2 ^ 64) ^ n := by
  have few' : ∀ T, (src.reverse.filter (fun s => s.2 < T)).length ≤ T := fun T => by
    rw [List.filter_reverse, List.length_reverse]; exact few T
  have h := sum_recs src.reverse (by rw [List.map_reverse, List.nodup_reverse]; exact hd) hL (fun ws s hs => hle ws s (by simpa using hs))
    (fun l hl => closedAt_few few' (by rwa [List.length_reverse]) (by omega)) 1 (Nat.le_refl 1) hL1
  have e : ∀ ws : Words n, recs 1 (src.reverse.map (levelOf ws)) = passes (src.map (levelOf ws)) := fun ws => by
    rw [passes_recs, ← List.map_reverse, recs_one]
    intro y hy
    obtain ⟨s, _, rfl⟩ := List.mem_map.1 hy
    exact levelFor_pos _ _
  simp only [e] at h
  have hcl : (1 + 1 / 2 ^ 1 : ℚ) ^ closedAt 1 src.reverse ≤ 4 / 3 :=
    pow_closed (closedAt_few few' (by rwa [List.length_reverse]) (by omega))
  have hm : ((univ.filter fun ws : Words n => t ≤ passes (src.map (levelOf ws))).card : ℚ) * (3 / 2) ^ t ≤
      ∑ ws : Words n, (3 / 2 : ℚ) ^ passes (src.map (levelOf ws)) := by
    rw [← sum_boole, sum_mul]
    refine sum_le_sum fun ws _ => ?_
    split
    · next h => rw [one_mul]; exact pow_le_pow_right₀ (by norm_num) h
    · rw [zero_mul]; positivity
  have h2 : (((2 : ℚ) ^ 64) ^ n * 4 ^ (L - 1)) * (1 + 1 / 2 ^ 1) ^ closedAt 1 src.reverse ≤ ((2 ^ 64) ^ n * 4 ^ (L - 1)) * (4 / 3) :=
    mul_le_mul_of_nonneg_left hcl (by positivity)
  have e4 : (4 : ℚ) ^ L = 4 ^ (L - 1) * 4 := by rw [← pow_succ]; congr 1; omega
  have h3 : ((univ.filter fun ws : Words n => t ≤ passes (src.map (levelOf ws))).card : ℚ) * (3 / 2) ^ t * (3 * 2 ^ t) ≤
      (2 ^ 64) ^ n * 4 ^ L * 2 ^ t := by
    rw [e4]
    have : (0 : ℚ) ≤ 3 * 2 ^ t := by positivity
    refine le_trans (mul_le_mul_of_nonneg_right (le_trans hm (le_trans h h2)) this) (le_of_eq ?_)
    ring
  have h4 : (3 : ℚ) ^ (t + 1) * ((univ.filter fun ws : Words n => t ≤ passes (src.map (levelOf ws))).card : ℚ) ≤ 2 ^ t * 4 ^ L * (2 ^ 64) ^ n := by
    refine le_trans (le_of_eq ?_) (le_trans h3 (le_of_eq (by ring)))
    rw [div_pow, pow_succ]
    field_simp
  exact_mod_cast h4

/-- Few sequences of words make an operation after a history long. -/
theorem card_calls (hc : LawfulCmp c) {ops : List (SMOp K V)} (hn : ops.length ≤ n) {N : Nat} (hN : inserts ops ≤ N) (hN' : N ≤ 2 ^ 38)
    (op : SMOp K V) {sls : Words n → SL K V} (hs : ∀ ws, ∃ obs, SL.run (.func c) newSkipList (withWords (wordAt ws) 0 ops) = .ret (sls ws, obs))
    (t : Nat) : 3 ^ (t + 1) * (univ.filter fun ws : Words n => N.log2 + 4 + t ≤ (opCalls c (sls ws) op).length).card ≤
      2 ^ t * 4 ^ (N.log2 + 3) * (2 ^ 64) ^ n := by
  obtain ⟨src, h1, h2, h3, h4, hone⟩ := calls_source hc hn hN hN' op hs
  have hL : min 40 (N.log2 + 3) ≤ N.log2 + 3 := min_le_right _ _
  have hsum := card_passes src h1 h2 h3 (min_le_left _ _) (le_min (by omega) (by omega)) h4 t
  have hsub : (univ.filter fun ws : Words n => N.log2 + 4 + t ≤ (opCalls c (sls ws) op).length).card ≤
      (univ.filter fun ws : Words n => t ≤ passes (src.map (levelOf ws))).card :=
    card_le_card fun ws hw => by
      simp only [mem_filter, mem_univ, true_and] at hw ⊢
      have := hone ws
      omega
  refine Nat.le_trans (Nat.mul_le_mul_left _ hsub) (Nat.le_trans hsum ?_)
  exact Nat.mul_le_mul_right _ (Nat.mul_le_mul_left _ (Nat.pow_le_pow_right (by omega) hL))

theorem nine_eighths (j : Nat) (hj : 6 ≤ j) : 2 ^ (2 * j - 4) * 2 ^ j ≤ 3 ^ (2 * j - 4 + 1) := by
  obtain ⟨i, rfl⟩ : ∃ i, j = i + 6 := ⟨j - 6, by omega⟩
  induction i with
  | zero => decide
  | succ i ih =>
    have ih := ih (by omega)
    rw [show 2 * (i + 1 + 6) - 4 = (2 * (i + 6) - 4) + 2 by omega, show i + 1 + 6 = (i + 6) + 1 by omega,
      show 2 * (i + 6) - 4 + 2 + 1 = (2 * (i + 6) - 4 + 1) + 2 by omega]
    rw [pow_add 2 _ 2, pow_add 2 (i + 6) 1, pow_add 3 _ 2]
    generalize 2 ^ (2 * (i + 6) - 4) = A at *
    generalize 2 ^ (i + 6) = B at *
    generalize 3 ^ (2 * (i + 6) - 4 + 1) = C at *
    have : A * 2 ^ 2 * (B * 2 ^ 1) = A * B * 8 := by ring
    rw [this]
    omega

/-- The same with powers of two. -/
theorem card_calls_rare (hc : LawfulCmp c) {ops : List (SMOp K V)} (hn : ops.length ≤ n) {N : Nat} (hN : inserts ops ≤ N) (hN' : N ≤ 2 ^ 38)
    (op : SMOp K V) {sls : Words n → SL K V} (hs : ∀ ws, ∃ obs, SL.run (.func c) newSkipList (withWords (wordAt ws) 0 ops) = .ret (sls ws, obs))
    (k : Nat) : 2 ^ k * (univ.filter fun ws : Words n => 5 * N.log2 + 12 + 2 * k ≤ (opCalls c (sls ws) op).length).card ≤ (2 ^ 64) ^ n := by
  have h := card_calls hc hn hN hN' op hs (2 * (2 * N.log2 + 6 + k) - 4)
  have h9 := nine_eighths (2 * N.log2 + 6 + k) (by omega)
  rw [show N.log2 + 4 + (2 * (2 * N.log2 + 6 + k) - 4) = 5 * N.log2 + 12 + 2 * k by omega] at h
  generalize (univ.filter fun ws : Words n => 5 * N.log2 + 12 + 2 * k ≤ (opCalls c (sls ws) op).length).card = C at *
  have e : 2 ^ (2 * N.log2 + 6 + k) = 4 ^ (N.log2 + 3) * 2 ^ k := by
    rw [show 4 = 2 ^ 2 from rfl, ← pow_mul, ← pow_add]; ring
  rw [e] at h9
  have h10 := Nat.le_trans (Nat.mul_le_mul_right C h9) h
  refine Nat.le_of_mul_le_mul_left (c := 2 ^ (2 * (2 * N.log2 + 6 + k) - 4) * 4 ^ (N.log2 + 3)) ?_
    (Nat.mul_pos (Nat.two_pow_pos _) (Nat.pow_pos (a := 4) (by decide)))
  refine Nat.le_trans (Nat.le_of_eq ?_) h10
  ring

/-- The state and the calls for all words. -/
theorem calls_states (hc : LawfulCmp c) (ha : AgreesWith cmp c) (ht : ∀ a b t, ∃ r t', cmp a b t = .ok r t')
    (ops : List (SMOp K V)) (t : τ) (rnd : Words n → Nat) (op : SMOp K V) (t' : τ) {calls : Words n → List (K × K)}
    (hcalls : ∀ ws, callsOf (SLM.exec cmp.logged (rnd ws) op ⟨(SLM.run cmp ⟨newSkipList, t⟩ (withWords (wordAt ws) 0 ops)).2.sl, (t', [])⟩) =
      some (calls ws)) :
    ∃ sls : Words n → SL K V, (∀ ws, ∃ obs, SL.run (.func c) newSkipList (withWords (wordAt ws) 0 ops) = .ret (sls ws, obs)) ∧
      ∀ ws, (calls ws).length ≤ (opCalls c (sls ws) op).length := by
  have hrun : ∀ ws : Words n, ∃ sl, (∃ obs, SL.run (.func c) newSkipList (withWords (wordAt ws) 0 ops) = .ret (sl, obs)) ∧
      (calls ws).length ≤ (opCalls c sl op).length := by
    intro ws
    obtain ⟨sl, ids, obs, e, hi, _⟩ := SLInv.run_labels hc (wordAt ws) ops 0 (SLInv.new (V := V) (SLImpl.func c).less)
    refine ⟨sl, ⟨obs, e⟩, ?_⟩
    obtain ⟨t1, e1⟩ := SLM.run_total ha ht _ t e
    have h1 := hcalls ws
    rw [e1] at h1
    obtain ⟨sl', ids', a1, _⟩ := hi.exec (impl := .func c) hc (rnd ws) op
    exact ((exec_follows ha.logged (t', []) a1).calls h1).length_le
  choose sls hs hle using hrun
  exact ⟨sls, hs, hle⟩

theorem drawing_take (ops : List (SMOp K V)) (ws : Fin ops.length → Fin (2 ^ 64)) (j : Nat) :
    (drawing ops ws).take j = withWords (wordAt ws) 0 (ops.take j) := by
  rw [drawing_eq]
  refine List.ext_getElem? fun i => ?_
  rw [List.getElem?_take, withWords_get, withWords_get, List.getElem?_take]
  split <;> simp

end Stl4go
