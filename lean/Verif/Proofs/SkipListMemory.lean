import Verif.Proofs.SkipListCost
import Verif.Spec.SkipListMemory
import Mathlib.Tactic.Ring
/-!
# Average number of links of a skip list
-/
namespace Stl4go
open Finset
variable {K V : Type} {impl : SLImpl K} {sl : SL K V} {ids : List Nat} {m : List (K × V)} {n : Nat}

/-! ## The nodes of a list -/

theorem SLInv.chain {less : K → K → Bool} (h : SLInv less sl ids m) (B : List Nat) : ∀ (A : List Nat) (fuel : Nat), ids = A ++ B → B.length ≤ fuel →
    (sl.chain fuel (firstAt sl.lvl 0 B)).map (fun n => n.next.length) = B.map sl.lvl ∧
      (sl.chain fuel (firstAt sl.lvl 0 B)).map (fun n => some (n.key, n.value)) = B.map sl.kv := by
  induction B with
  | nil => intro A fuel _ _; cases fuel <;> simp [firstAt, SL.chain]
  | cons p B ih =>
    intro A fuel e hf
    obtain ⟨fuel, rfl⟩ : ∃ f, fuel = f + 1 := ⟨fuel - 1, by simp at hf; omega⟩
    have hp : 0 < sl.lvl p := h.lvl_pos p (by rw [e]; simp)
    have hg := h.linked.node_get A p B e 0 hp
    rw [firstAt_cons_pos hp]
    simp only [SL.get] at hg
    cases hn : sl.nodes[p]? with
    | none => rw [hn] at hg; simp at hg
    | some nd =>
      rw [hn] at hg
      simp only [Option.bind_some] at hg
      obtain ⟨i1, i2⟩ := ih (A ++ [p]) fuel (by simp [e]) (by simpa using hf)
      simp only [SL.chain, hn, hg, Option.getD_some, List.map_cons, i1, i2]
      exact ⟨by simp [SL.lvl, hn], by simp [SL.kv, hn]⟩

theorem SLInv.entryNodes {less : K → K → Bool} (h : SLInv less sl ids m) :
    sl.entryNodes.map (fun n => n.next.length) = ids.map sl.lvl ∧ sl.entryNodes.map (fun n => (n.key, n.value)) = m := by
  have hh := h.linked.head_get 0 (by omega)
  simp only [SL.get] at hh
  obtain ⟨h1, h2⟩ := h.chain ids [] sl.nodes.length rfl h.count
  simp only [SL.entryNodes, hh, Option.getD_some]
  refine ⟨h1, ?_⟩
  rw [h.kvs] at h2
  refine List.map_injective_iff.2 (Option.some_injective _) ?_
  rw [List.map_map]
  exact h2

theorem SLInv.linkSlots {less : K → K → Bool} (h : SLInv less sl ids m) : sl.linkSlots = (ids.map sl.lvl).sum := by
  rw [SL.linkSlots, h.entryNodes.1]

/-! ## The average level -/

theorem levelFor_le (w len : Nat) : levelFor w len ≤ 40 := by
  rcases Nat.lt_or_ge 40 (levelFor w len) with h | h
  · have := (levelFor_iff (rnd := w) (len := len) (j := 41) (by omega)).1 h
    rcases this.2 with h | h <;> omega
  · exact h

theorem sum_ones {l L : Nat} (h : l ≤ L) : l = ∑ j ∈ range L, if j + 1 ≤ l then 1 else 0 := by
  rw [← card_filter]
  have : (range L).filter (fun j => j + 1 ≤ l) = range l := by
    ext j; simp only [mem_filter, mem_range]; omega
  rw [this, card_range]

/-- The sum of the levels, over all words. -/
theorem sum_level (i : Fin n) (len : Nat) :
    2 ^ 39 * ∑ ws : Words n, levelFor (ws i) len = (∑ j ∈ range 40, if LevelOpen len (j + 1) then 2 ^ (39 - j) else 0) * (2 ^ 64) ^ n := by
  have e : ∀ ws : Words n, levelFor (ws i) len = ∑ j ∈ range 40, if (ws i : Nat) % 2 ^ 40 < 2 ^ (41 - (j + 1)) ∧ LevelOpen len (j + 1) then 1 else 0 := by
    intro ws
    conv => lhs; rw [sum_ones (levelFor_le (ws i) len)]
    refine sum_congr rfl fun j _ => ?_
    simp only [levelFor_iff (rnd := (ws i : Nat)) (len := len) (j := j + 1) (by omega)]
  simp only [e]
  rw [sum_comm, mul_sum, sum_mul]
  refine sum_congr rfl fun j hj => ?_
  have hj := mem_range.1 hj
  by_cases ho : LevelOpen len (j + 1)
  · simp only [ho, and_true, if_true]
    rw [← card_filter, ← card_level i (l := j + 1) (by omega) (by omega), Nat.add_sub_cancel]
    rw [show 2 ^ 39 = 2 ^ (39 - j) * 2 ^ j by rw [← pow_add]; congr 1; omega]
    ring
  · simp [ho]

theorem sum_pows : ∑ j ∈ range 40, 2 ^ (39 - j) = 2 ^ 40 - 1 := by decide +kernel

theorem level_upper (i : Fin n) (len : Nat) : ∑ ws : Words n, levelFor (ws i) len ≤ 2 * (2 ^ 64) ^ n := by
  have h := sum_level i len
  have h1 : (∑ j ∈ range 40, if LevelOpen len (j + 1) then 2 ^ (39 - j) else 0) ≤ 2 ^ 40 := by
    refine Nat.le_trans (sum_le_sum (g := fun j => 2 ^ (39 - j)) fun j _ => ?_) (by rw [sum_pows]; omega)
    split
    · exact Nat.le_refl _
    · exact Nat.zero_le _
  have h2 := Nat.mul_le_mul_right ((2 ^ 64) ^ n) h1
  generalize (2 ^ 64) ^ n = M at *
  omega

theorem level_lower (i : Fin n) (len : Nat) : 7 * (2 ^ 64) ^ n ≤ 4 * ∑ ws : Words n, levelFor (ws i) len := by
  have h := sum_level i len
  have h1 : 7 * 2 ^ 37 ≤ ∑ j ∈ range 40, if LevelOpen len (j + 1) then 2 ^ (39 - j) else 0 := by
    refine Nat.le_trans ?_ (sum_le_sum_of_subset (f := fun j => if LevelOpen len (j + 1) then 2 ^ (39 - j) else 0) (range_subset_range.2 (show 3 ≤ 40 by omega)))
    simp [sum_range_succ, LevelOpen]
  have h2 := Nat.mul_le_mul_right ((2 ^ 64) ^ n) h1
  generalize (2 ^ 64) ^ n = M at *
  omega

/-! ## After a history -/

theorem sum_levels (src : List (Fin n × Nat)) :
    7 * src.length * (2 ^ 64) ^ n ≤ 4 * ∑ ws : Words n, (src.map (levelOf ws)).sum ∧
      ∑ ws : Words n, (src.map (levelOf ws)).sum ≤ 2 * src.length * (2 ^ 64) ^ n := by
  induction src with
  | nil => simp
  | cons s src ih =>
    simp only [List.map_cons, List.sum_cons, sum_add_distrib, List.length_cons]
    have h1 : _ ≤ 4 * ∑ ws : Words n, levelOf ws s := level_lower s.1 s.2
    have h2 : ∑ ws : Words n, levelOf ws s ≤ _ := level_upper s.1 s.2
    have e1 : 7 * (src.length + 1) * (2 ^ 64) ^ n = 7 * src.length * (2 ^ 64) ^ n + 7 * (2 ^ 64) ^ n := by ring
    have e2 : 2 * (src.length + 1) * (2 ^ 64) ^ n = 2 * src.length * (2 ^ 64) ^ n + 2 * (2 ^ 64) ^ n := by ring
    omega

theorem links_average (hl : impl.Lawful) (ops : List (SMOp K V)) : ∃ sls : Words ops.length → SL K V,
    (∀ ws, SL.Built impl (drawing ops ws) (sls ws) ∧ (sls ws).len = ((SMap.run impl.less [] ops).2.length : Nat)) ∧
      7 * (SMap.run impl.less [] ops).2.length * (2 ^ 64) ^ ops.length ≤ 4 * ∑ ws, (sls ws).linkSlots ∧
      ∑ ws, (sls ws).linkSlots ≤ 2 * (SMap.run impl.less [] ops).2.length * (2 ^ 64) ^ ops.length := by
  have state : ∀ ws : Words ops.length, ∃ sl, SL.Built impl (drawing ops ws) sl ∧ sl.len = ((SMap.run impl.less [] ops).2.length : Nat) ∧
      sl.linkSlots = ((replay impl.less Prod.mk 0 [] [] ops).map (fun s => levelFor (wordAt ws s.1) s.2)).sum := by
    intro ws
    obtain ⟨sl, ids, obs, a1, a2, a3⟩ := SLInv.run_labels_impl hl (wordAt ws) ops 0 (SLInv.new (V := V) impl.less)
    refine ⟨sl, ⟨obs, by rw [drawing_eq, a1]⟩, by rw [a2.len_eq, a2.len_m], ?_⟩
    rw [a2.linkSlots, a3, replay_map]; rfl
  choose sls h1 h2 h3 using state
  have src := sources_replay_impl hl ops 0 (SLInv.new (V := V) impl.less) (l := []) ⟨rfl, by simp, by simp, by simp⟩
  rw [Nat.zero_add] at src
  obtain ⟨src', hsrc'⟩ := exists_fin (n := ops.length) (replay impl.less Prod.mk 0 [] [] ops) (fun s hx => src.lt s hx)
  rw [← hsrc'] at src h3
  have hlen : src'.length = (SMap.run impl.less [] ops).2.length := by simpa using src.len
  refine ⟨sls, fun ws => ⟨h1 ws, h2 ws⟩, ?_⟩
  have e : ∀ ws, (sls ws).linkSlots = (src'.map (levelOf ws)).sum := by
    intro ws
    rw [h3, List.map_map]
    congr 1
    exact List.map_congr_left fun s _ => by simp [wordAt, levelOf]
  simp only [e, ← hlen]
  exact sum_levels src'

/-- Levels between 1 and 40. -/
theorem SLInv.linkSlots_bounds {less : K → K → Bool} (h : SLInv less sl ids m) : m.length ≤ sl.linkSlots ∧ sl.linkSlots ≤ 40 * m.length := by
  rw [h.linkSlots, ← h.len_m]
  have h1 : ∀ p ∈ ids, 1 ≤ sl.lvl p ∧ sl.lvl p ≤ 40 := fun p hp => ⟨h.lvl_pos p hp, Nat.le_trans (h.lvl_le p hp) h.level_le⟩
  clear h
  induction ids with
  | nil => simp
  | cons p ids ih =>
    have := ih (fun q hq => h1 q (by simp [hq]))
    have := h1 p (by simp)
    simp only [List.map_cons, List.sum_cons, List.length_cons]
    omega

/-- The highest level that a list of length `len` gives a node. -/
theorem levelOpen_iff {len j : Nat} : LevelOpen len j ↔ j ≤ (if len = 0 then 3 else min 40 (Nat.log2 len + 3)) := by
  unfold LevelOpen
  split
  · next h =>
    subst h
    refine ⟨fun h => ?_, .inl⟩
    rcases h with h | ⟨_, h⟩
    · exact h
    · have := Nat.two_pow_pos (j - 3); omega
  · next h =>
    rw [← Nat.le_log2 h]
    omega

theorem sum_word_level (len : Nat) : ∑ w : Fin (2 ^ 64), levelFor w len + 2 ^ (65 - (if len = 0 then 3 else min 40 (Nat.log2 len + 3))) = 2 ^ 65 := by
  have h := sum_level (n := 1) 0 len
  have e : ∑ ws : Words 1, levelFor (ws 0) len = ∑ w : Fin (2 ^ 64), levelFor w len :=
    Fintype.sum_equiv (Equiv.funUnique (Fin 1) (Fin (2 ^ 64))) _ _ (fun _ => rfl)
  rw [e, pow_one] at h
  simp only [levelOpen_iff] at h
  have hJ : 3 ≤ (if len = 0 then 3 else min 40 (Nat.log2 len + 3)) ∧ (if len = 0 then 3 else min 40 (Nat.log2 len + 3)) ≤ 40 := by
    split <;> omega
  generalize (if len = 0 then 3 else min 40 (Nat.log2 len + 3)) = J at *
  have hs : ∀ J, J ≤ 40 → (∑ j ∈ range 40, if j + 1 ≤ J then 2 ^ (39 - j) else 0) + 2 ^ (40 - J) = 2 ^ 40 := by decide +kernel
  have h1 := hs J hJ.2
  have h2 : 2 ^ (65 - J) = 2 ^ 25 * 2 ^ (40 - J) := by rw [show 65 - J = 25 + (40 - J) by omega, pow_add]
  rw [h2]
  generalize 2 ^ (40 - J) = P at *
  omega

end Stl4go
