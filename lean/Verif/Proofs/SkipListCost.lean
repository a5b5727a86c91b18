import Verif.Proofs.SkipListCount
import Verif.Proofs.SkipListMHist
import Verif.Spec.SkipListCost
/-!
# Average number of calls of the compare function
-/
namespace Stl4go
open Finset
variable {K V τ : Type} {c : K → K → Int} {n : Nat}

/-- The word of operation `i`. -/
def wordAt (ws : Words n) (i : Nat) : Nat := if h : i < n then ws ⟨i, h⟩ else 0

theorem withWords_get (w : Nat → Nat) (ops : List (SMOp K V)) : ∀ (i j : Nat), (withWords w i ops)[j]? = ops[j]?.map fun op => (w (i + j), op) := by
  induction ops with
  | nil => intro i j; simp [withWords]
  | cons op ops ih =>
    intro i j
    cases j with
    | zero => simp [withWords]
    | succ j => simp only [withWords, List.getElem?_cons_succ, ih]; rw [show i + 1 + j = i + (j + 1) by omega]

theorem drawing_eq (ops : List (SMOp K V)) (ws : Fin ops.length → Fin (2 ^ 64)) : drawing ops ws = withWords (wordAt ws) 0 ops := by
  refine List.ext_getElem? fun j => ?_
  rw [withWords_get, drawing, List.getElem?_ofFn]
  by_cases h : j < ops.length
  · simp [h, wordAt]
  · simp [h]

theorem withWords_append (w : Nat → Nat) (ops ops' : List (SMOp K V)) : ∀ i,
    withWords w i (ops ++ ops') = withWords w i ops ++ withWords w (i + ops.length) ops' := by
  induction ops with
  | nil => intro i; simp [withWords]
  | cons op ops ih => intro i; simp only [List.cons_append, withWords, ih, List.length_cons]; rw [show i + 1 + ops.length = i + (ops.length + 1) by omega]

theorem inserts_append (a b : List (SMOp K V)) : inserts (a ++ b) = inserts a + inserts b := by
  simp [inserts, List.filter_append]

/-- Labels with bounded numbers. -/
theorem exists_fin (src : List (Nat × Nat)) (h : ∀ s ∈ src, s.1 < n) :
    ∃ src' : List (Fin n × Nat), src'.map (fun s => ((s.1 : Nat), s.2)) = src := by
  induction src with
  | nil => exact ⟨[], rfl⟩
  | cons s src ih =>
    obtain ⟨r, hr⟩ := ih (fun x hx => h x (by simp [hx]))
    exact ⟨(⟨s.1, h s (by simp)⟩, s.2) :: r, by simp [hr]⟩

/-- The nodes before a key, and the calls of an operation with this key after a history. -/
theorem calls_source (hc : LawfulCmp c) {ops : List (SMOp K V)} (hn : ops.length ≤ n) {N : Nat} (hN : inserts ops ≤ N) (hN' : N ≤ 2 ^ 38)
    (op : SMOp K V) {sls : Words n → SL K V} (hs : ∀ ws, ∃ obs, SL.run (.func c) newSkipList (withWords (wordAt ws) 0 ops) = .ret (sls ws, obs)) :
    ∃ src : List (Fin n × Nat), (src.map Prod.fst).Nodup ∧ (∀ T, (src.filter (fun s => s.2 < T)).length ≤ T) ∧ src.length ≤ 2 ^ 38 ∧
      (∀ ws : Words n, ∀ s ∈ src, levelOf ws s ≤ min 40 (N.log2 + 3)) ∧
      ∀ ws, (opCalls c (sls ws) op).length ≤ passes (src.map (levelOf ws)) + (min 40 (N.log2 + 3) + 1) := by
  cases hk : op.key? with
  | none =>
    have : ∀ ws, (opCalls c (sls ws) op).length = 0 := fun ws => by rw [opCalls_eq, hk]; rfl
    exact ⟨[], by simp, by simp, by simp, by simp, fun ws => by rw [this]; omega⟩
  | some key =>
  have hl' : (SLImpl.func c).Lawful := hc
  have hpure : AgreesWith (fun a b => pure (c a b) : CmpM K Unit) c := by
    intro a b t r t' e
    injection e with e1 _
    rw [← e1]
  -- the state after the history
  have state : ∀ ws : Words n, ∃ ids, SLInv (SLImpl.func c).less (sls ws) ids (SMap.run (SLImpl.func c).less [] ops).2 ∧
      ids.map (sls ws).lvl = (replay (SLImpl.func c).less Prod.mk 0 [] [] ops).map (fun s => levelFor (wordAt ws s.1) s.2) ∧
      (sls ws).level ≤ min 40 (N.log2 + 3) ∧ (SMap.run (SLImpl.func c).less [] ops).2.length ≤ N := by
    intro ws
    obtain ⟨obs, e⟩ := hs ws
    obtain ⟨sl', ids, obs', a1, a2, a3⟩ := SLInv.run_labels hc (wordAt ws) ops 0 (SLInv.new (V := V) (SLImpl.func c).less)
    rw [e] at a1
    injection a1 with a1; injection a1 with a1 _
    subst a1
    obtain ⟨t, ht⟩ := SLM.run_total hpure (fun a b t => ⟨_, _, rfl⟩) _ () e
    obtain ⟨ids2, l2, _, b2, b3, b4⟩ := history_any hpure (withWords (wordAt ws) 0 ops) ()
    rw [ht] at b2 b4
    rw [opsOf_withWords] at b3 b4
    have b4 : 3 < (sls ws).level → 2 ^ ((sls ws).level - 3) ≤ inserts ops := b4
    have hl2 := Holds.inj b2 a2.holds
    subst hl2
    refine ⟨ids, a2, ?_, ?_, by omega⟩
    · rw [a3, replay_map]; rfl
    · have h1 := level_bound (level := (sls ws).level) (n := N) (fun h3 => by have := b4 h3; omega)
      exact le_min a2.level_le h1
  have src := sources_replay hc ops 0 (SLInv.new (V := V) (SLImpl.func c).less) (l := []) ⟨rfl, by simp, by simp, by simp⟩
  rw [Nat.zero_add] at src
  obtain ⟨src', hsrc'⟩ := exists_fin (n := n) (replay (SLImpl.func c).less Prod.mk 0 [] [] ops) (fun s hx => by have := src.lt s hx; omega)
  rw [← hsrc'] at src state
  have hlev : ∀ (ws : Words n) (s : Fin n × Nat), levelFor (wordAt ws (s.1 : Nat)) s.2 = levelOf ws s := fun ws s => by simp [wordAt, levelOf]
  generalize hg : ((SMap.run (SLImpl.func c).less [] ops).2.filter (fun e => (SLImpl.func c).less e.1 key)).length = g
  have hsub := src.sub ((List.take_sublist g src').map _) (Nat.le_refl _) rfl
  refine ⟨src'.take g, (by
      have h1 := hsub.nodup
      rw [List.map_map] at h1
      have : ((src'.take g).map (Prod.fst ∘ fun s : Fin n × Nat => ((s.1 : Nat), s.2))) = ((src'.take g).map Prod.fst).map Fin.val := by
        rw [List.map_map]; rfl
      rw [this] at h1
      exact h1.of_map _),
    (fun T => by
      have h1 := hsub.few T
      rw [List.filter_map, List.length_map] at h1
      exact h1),
    (by
      obtain ⟨_, _, _, _, h4⟩ := state (fun _ => 0)
      have h5 := src.len
      simp only [List.length_map] at h5
      rw [List.length_take]
      omega),
    (fun ws s hx => by
      obtain ⟨ids, h1, h2, h3, _⟩ := state ws
      refine Nat.le_trans ?_ h3
      have : levelOf ws s ∈ ids.map (sls ws).lvl := by
        rw [h2, ← hlev]
        exact List.mem_map.2 ⟨_, List.mem_map.2 ⟨s, List.mem_of_mem_take hx, rfl⟩, rfl⟩
      obtain ⟨q, hq, e⟩ := List.mem_map.1 this
      rw [← e]; exact h1.lvl_le q hq), ?_⟩
  · intro ws
    obtain ⟨ids, h1, h2, h3, _⟩ := state ws
    obtain ⟨iG, R, e1, e2, e3⟩ := h1.opCalls_lawful hc op hk
    rw [hg] at e2
    have h4 : iG.map (sls ws).lvl = (src'.take g).map (levelOf ws) := by
      have h5 : (ids.map (sls ws).lvl).take g = iG.map (sls ws).lvl := by rw [e1, List.map_append, List.take_left' (by simpa using e2)]
      rw [← h5, h2, List.map_map, ← List.map_take]
      exact List.map_congr_left fun s _ => hlev ws s
    rw [sufMax_passes, h4] at e3
    omega

/-- Average number of calls of one operation after a history. -/
theorem sum_calls (hc : LawfulCmp c) {ops : List (SMOp K V)} (hn : ops.length ≤ n) {N : Nat} (hN : inserts ops ≤ N) (hN' : N ≤ 2 ^ 38)
    (op : SMOp K V) {sls : Words n → SL K V} (hs : ∀ ws, ∃ obs, SL.run (.func c) newSkipList (withWords (wordAt ws) 0 ops) = .ret (sls ws, obs)) :
    2 * ∑ ws : Words n, (opCalls c (sls ws) op).length ≤ (5 * N.log2 + 17) * (2 ^ 64) ^ n := by
  obtain ⟨src, h1, h2, h3, h4, hone⟩ := calls_source hc hn hN hN' op hs
  have hsum := sum_passes src h1 h2 h3 (min_le_left _ _) h4
  have htot := sum_le_sum fun ws (_ : ws ∈ (univ : Finset (Words n))) => hone ws
  rw [sum_add_distrib, sum_const, card_univ, card_words, Nat.nsmul_eq_mul] at htot
  have hL : min 40 (N.log2 + 3) ≤ N.log2 + 3 := min_le_right _ _
  generalize min 40 (N.log2 + 3) = L at *
  have h5 : (5 * L + 2) * (2 ^ 64) ^ n ≤ (5 * N.log2 + 17) * (2 ^ 64) ^ n := Nat.mul_le_mul_right _ (by omega)
  have h6 : (5 * L + 2) * (2 ^ 64) ^ n = 3 * L * (2 ^ 64) ^ n + 2 * ((2 ^ 64) ^ n * (L + 1)) := by
    rw [Nat.mul_comm ((2 ^ 64) ^ n), ← Nat.mul_assoc, ← Nat.add_mul]
    congr 1
    omega
  omega

/-! ## A whole history -/

/-- The number of calls in a history. -/
def totalCalls (c : K → K → Int) : SL K V → List (Nat × SMOp K V) → Nat
  | _, [] => 0
  | sl, (rnd, op) :: h => (opCalls c sl op).length + match sl.exec (.func c) rnd op with
    | .ret (sl', _) => totalCalls c sl' h
    | _ => 0

theorem totalCalls_append (h h' : List (Nat × SMOp K V)) : ∀ {sl sl1 : SL K V} {obs : List (SMObs K V)},
    SL.run (.func c) sl h = .ret (sl1, obs) → totalCalls c sl (h ++ h') = totalCalls c sl h + totalCalls c sl1 h' := by
  induction h with
  | nil =>
    intro sl sl1 obs e
    injection e with e; injection e with e1 e2; subst e1
    simp [totalCalls]
  | cons o h ih =>
    intro sl sl1 obs e
    obtain ⟨rnd, op⟩ := o
    simp only [SL.run] at e
    obtain ⟨⟨s1, ob⟩, e1, e⟩ := Outcome.bind_ret e
    obtain ⟨⟨s2, obs'⟩, e2, e⟩ := Outcome.bind_ret e
    injection e with e; injection e with e3 e4; subst e3
    simp only [List.cons_append, totalCalls, e1, ih e2]
    exact (Nat.add_assoc _ _ _).symm

theorem run_log {cmp : CmpM K τ} (ha : AgreesWith cmp c) (ht : ∀ a b t, ∃ r t', cmp a b t = .ok r t') (h : List (Nat × SMOp K V)) :
    ∀ {sl sl' : SL K V} {obs : List (SMObs K V)} (t : τ) (log : List (K × K)), SL.run (.func c) sl h = .ret (sl', obs) →
      (SLM.run cmp.logged ⟨sl, (t, log)⟩ h).2.st.2.length = log.length + totalCalls c sl h := by
  have ht' : ∀ a b (s : τ × List (K × K)), ∃ r s', cmp.logged a b s = .ok r s' := by
    intro a b s
    obtain ⟨r, t', e⟩ := ht a b s.1
    exact ⟨r, _, by simp only [CmpM.logged, e]; rfl⟩
  induction h with
  | nil => intro sl sl' obs t log _; simp [SLM.run, totalCalls]
  | cons o h ih =>
    intro sl sl' obs t log e
    obtain ⟨rnd, op⟩ := o
    simp only [SL.run] at e
    obtain ⟨⟨s1, ob⟩, e1, e⟩ := Outcome.bind_ret e
    obtain ⟨⟨s2, obs'⟩, e2, e⟩ := Outcome.bind_ret e
    have hf := exec_follows ha.logged (t, log) e1
    obtain ⟨t1, h1⟩ := callAll_total ht' (opCalls c sl op) (t, log)
    have h2 := callAll_logged cmp (opCalls c sl op) t log
    simp only [Follows, h1] at hf h2
    simp only [SLM.run, hf, totalCalls, e1]
    rw [show t1 = (t1.1, t1.2) from rfl, ih t1.1 t1.2 e2, h2]
    simp; omega

theorem sum_total (hc : LawfulCmp c) {N : Nat} (hN' : N ≤ 2 ^ 38) (ops : List (SMOp K V)) (hn : ops.length ≤ n) (hN : inserts ops ≤ N) :
    2 * ∑ ws : Words n, totalCalls c newSkipList (withWords (wordAt ws) 0 ops) ≤ (5 * N.log2 + 17) * ops.length * (2 ^ 64) ^ n := by
  have hrun : ∀ (ws : Words n) (ops : List (SMOp K V)), ∃ sl obs, SL.run (.func c) newSkipList (withWords (wordAt ws) 0 ops) = .ret (sl, obs) := by
    intro ws ops
    obtain ⟨sl, _, obs, e, _⟩ := SLInv.run_labels hc (wordAt ws) ops 0 (SLInv.new (V := V) (SLImpl.func c).less)
    exact ⟨sl, obs, e⟩
  induction ops using List.reverseRecOn with
  | nil => simp [withWords, totalCalls]
  | append_singleton ops op ih =>
    rw [inserts_append] at hN
    simp only [List.length_append, List.length_cons, List.length_nil] at hn
    have ih := ih (by omega) (by omega)
    choose sls obs hs using fun ws => hrun ws ops
    have hlast := sum_calls hc (n := n) (ops := ops) (by omega) (N := N) (by omega) hN' op (sls := sls) (fun ws => ⟨obs ws, hs ws⟩)
    have e : ∀ ws : Words n, totalCalls c newSkipList (withWords (wordAt ws) 0 (ops ++ [op])) =
        totalCalls c newSkipList (withWords (wordAt ws) 0 ops) + (opCalls c (sls ws) op).length := by
      intro ws
      rw [withWords_append, totalCalls_append _ _ (hs ws)]
      simp only [withWords, totalCalls]
      split <;> rfl
    simp only [e, sum_add_distrib, List.length_append, List.length_cons, List.length_nil]
    rw [Nat.zero_add, Nat.mul_add _ ops.length 1, Nat.mul_one, Nat.add_mul]
    omega

end Stl4go
