import Verif.Proofs.SkipListTail
import Verif.Props.SkipListCost
/-!
# Property C160: long searches are rare

As in C105, the operations are fixed in advance, the random words range over all sequences, and a number of sequences divided by
`(2 ^ 64) ^ ops.length` is a probability. The averages of C105 leave open that a few sequences make many operations slow.
-/
namespace Stl4go
open Finset
variable {K V τ : Type} {cmp : CmpM K τ} {c : K → K → Int}

/-- C160: after `N` insertions and any other operations, the share of the random words with which one more operation calls the compare
function `log₂ N + 4 + t` times or more is at most `4 ^ (log₂ N + 3) * (2/3) ^ t / 3`. -/
theorem C160_tail (hc : LawfulCmp c) (ha : AgreesWith cmp c) (ht : ∀ a b t, ∃ r t', cmp a b t = .ok r t')
    (ops : List (SMOp K V)) (hN : inserts ops ≤ 2 ^ 38) (t : τ) (rnd : Nat) (op : SMOp K V) (t' : τ)
    {calls : (Fin ops.length → Fin (2 ^ 64)) → List (K × K)}
    (hcalls : ∀ ws, callsOf (SLM.exec cmp.logged rnd op ⟨(SLM.run cmp ⟨newSkipList, t⟩ (drawing ops ws)).2.sl, (t', [])⟩) = some (calls ws))
    (s : Nat) :
    3 ^ (s + 1) * (univ.filter fun ws => (inserts ops).log2 + 4 + s ≤ (calls ws).length).card ≤
      2 ^ s * 4 ^ ((inserts ops).log2 + 3) * (2 ^ 64) ^ ops.length := by
  simp only [drawing_eq] at hcalls
  obtain ⟨sls, hs, hle⟩ := calls_states hc ha ht ops t (fun _ => rnd) op t' hcalls
  refine Nat.le_trans (Nat.mul_le_mul_left _ (card_le_card fun ws hw => ?_)) (card_calls hc (Nat.le_refl _) (Nat.le_refl _) hN op hs s)
  simp only [mem_filter, mem_univ, true_and] at hw ⊢
  exact Nat.le_trans hw (hle ws)

/-- C160: `5 log₂ N + 12 + 2 k` calls or more happen with probability at most `2 ^ -k`. -/
theorem C160_rare (hc : LawfulCmp c) (ha : AgreesWith cmp c) (ht : ∀ a b t, ∃ r t', cmp a b t = .ok r t')
    (ops : List (SMOp K V)) (hN : inserts ops ≤ 2 ^ 38) (t : τ) (rnd : Nat) (op : SMOp K V) (t' : τ)
    {calls : (Fin ops.length → Fin (2 ^ 64)) → List (K × K)}
    (hcalls : ∀ ws, callsOf (SLM.exec cmp.logged rnd op ⟨(SLM.run cmp ⟨newSkipList, t⟩ (drawing ops ws)).2.sl, (t', [])⟩) = some (calls ws))
    (k : Nat) :
    2 ^ k * (univ.filter fun ws => 5 * (inserts ops).log2 + 12 + 2 * k ≤ (calls ws).length).card ≤ (2 ^ 64) ^ ops.length := by
  simp only [drawing_eq] at hcalls
  obtain ⟨sls, hs, hle⟩ := calls_states hc ha ht ops t (fun _ => rnd) op t' hcalls
  refine Nat.le_trans (Nat.mul_le_mul_left _ (card_le_card fun ws hw => ?_)) (card_calls_rare hc (Nat.le_refl _) (Nat.le_refl _) hN op hs k)
  simp only [mem_filter, mem_univ, true_and] at hw ⊢
  exact Nat.le_trans hw (hle ws)

/-- C160: the probability that some operation of a history of `M` operations makes `5 log₂ N + 12 + 2 k` calls or more is at most
`M * 2 ^ -k`. `calls ws j` are the calls of operation number `j` with the words `ws`. -/
theorem C160_history (hc : LawfulCmp c) (ha : AgreesWith cmp c) (ht : ∀ a b t, ∃ r t', cmp a b t = .ok r t')
    (ops : List (SMOp K V)) (hN : inserts ops ≤ 2 ^ 38) (t : τ) (t' : τ)
    {calls : (Fin ops.length → Fin (2 ^ 64)) → Fin ops.length → List (K × K)}
    (hcalls : ∀ ws (j : Fin ops.length), callsOf (SLM.exec cmp.logged (ws j) ops[j] ⟨(SLM.run cmp ⟨newSkipList, t⟩ ((drawing ops ws).take j)).2.sl, (t', [])⟩) =
      some (calls ws j)) (k : Nat) :
    2 ^ k * (univ.filter fun ws => ∃ j, 5 * (inserts ops).log2 + 12 + 2 * k ≤ (calls ws j).length).card ≤ ops.length * (2 ^ 64) ^ ops.length := by
  simp only [drawing_take] at hcalls
  have one : ∀ j : Fin ops.length, 2 ^ k * (univ.filter fun ws => 5 * (inserts ops).log2 + 12 + 2 * k ≤ (calls ws j).length).card ≤
      (2 ^ 64) ^ ops.length := by
    intro j
    obtain ⟨sls, hs, hle⟩ := calls_states hc ha ht (ops.take j) t (fun ws => ws j) ops[j] t' (calls := fun ws => calls ws j) (fun ws => hcalls ws j)
    have hins : inserts (ops.take j) ≤ inserts ops := by
      have := inserts_append (ops.take j) (ops.drop j)
      rw [List.take_append_drop] at this
      omega
    refine Nat.le_trans (Nat.mul_le_mul_left _ (card_le_card fun ws hw => ?_))
      (card_calls_rare hc (n := ops.length) (by simp) hins hN ops[j] hs k)
    simp only [mem_filter, mem_univ, true_and] at hw ⊢
    exact Nat.le_trans hw (hle ws)
  have hu : (univ.filter fun ws => ∃ j, 5 * (inserts ops).log2 + 12 + 2 * k ≤ (calls ws j).length) ⊆
      univ.biUnion fun j => univ.filter fun ws => 5 * (inserts ops).log2 + 12 + 2 * k ≤ (calls ws j).length := by
    intro ws hw
    simpa using hw
  calc _ ≤ 2 ^ k * ∑ j : Fin ops.length, (univ.filter fun ws => 5 * (inserts ops).log2 + 12 + 2 * k ≤ (calls ws j).length).card :=
        Nat.mul_le_mul_left _ (Nat.le_trans (card_le_card hu) card_biUnion_le)
    _ = ∑ j : Fin ops.length, 2 ^ k * (univ.filter fun ws => 5 * (inserts ops).log2 + 12 + 2 * k ≤ (calls ws j).length).card := mul_sum _ _ _
    _ ≤ ∑ _j : Fin ops.length, (2 ^ 64) ^ ops.length := sum_le_sum fun j _ => one j
    _ = ops.length * (2 ^ 64) ^ ops.length := by rw [sum_const, card_univ, Fintype.card_fin, Nat.nsmul_eq_mul]

/-- C160: the calls are defined for all words and operations. -/
theorem C160_defined (hc : LawfulCmp c) (ha : AgreesWith cmp c) (ht : ∀ a b t, ∃ r t', cmp a b t = .ok r t')
    (ops : List (SMOp K V)) (t : τ) (t' : τ) :
    ∃ calls : (Fin ops.length → Fin (2 ^ 64)) → Fin ops.length → List (K × K),
      ∀ ws (j : Fin ops.length), callsOf (SLM.exec cmp.logged (ws j) ops[j] ⟨(SLM.run cmp ⟨newSkipList, t⟩ ((drawing ops ws).take j)).2.sl, (t', [])⟩) =
        some (calls ws j) := by
  have h : ∀ (ws : Fin ops.length → Fin (2 ^ 64)) (j : Fin ops.length), ∃ l,
      callsOf (SLM.exec cmp.logged (ws j) ops[j] ⟨(SLM.run cmp ⟨newSkipList, t⟩ ((drawing ops ws).take j)).2.sl, (t', [])⟩) = some l := by
    intro ws j
    obtain ⟨ids, l, _, hi, _⟩ := history_lawful hc ha ((drawing ops ws).take j) t
    obtain ⟨sl', ids', a1, _⟩ := hi.exec (impl := .func c) hc (ws j) ops[j]
    have hf := exec_follows ha.logged (t', []) a1
    obtain ⟨s, e⟩ := callAll_total (cmp := cmp.logged) (fun a b s => by
      obtain ⟨r, t', e⟩ := ht a b s.1
      exact ⟨r, _, by simp only [CmpM.logged, e]; rfl⟩)
      (opCalls c (SLM.run cmp ⟨newSkipList, t⟩ ((drawing ops ws).take j)).2.sl ops[j]) (t', [])
    simp only [Follows, e] at hf
    exact ⟨_, by rw [hf]; rfl⟩
  choose calls hcalls using h
  exact ⟨calls, hcalls⟩

/-- A million insertions: 169 calls or more with probability at most 2⁻³¹; some operation of the first 2²¹ with probability at most 2⁻¹⁰. -/
example : 5 * Nat.log2 1000000 + 12 + 2 * 31 = 169 := by decide +kernel

/-- The hypotheses hold for a function that counts its calls. -/
example (ops : List (SMOp Int Int)) (hN : inserts ops ≤ 2 ^ 38) (k : Nat) :
    ∃ calls : (Fin ops.length → Fin (2 ^ 64)) → Fin ops.length → List (Int × Int),
      2 ^ k * (univ.filter fun ws => ∃ j, 5 * (inserts ops).log2 + 12 + 2 * k ≤ (calls ws j).length).card ≤ ops.length * (2 ^ 64) ^ ops.length := by
  obtain ⟨calls, h⟩ := C160_defined (cmp := panicky []) sub_lawful (panicky_agrees []) (fun a b t => ⟨a - b, t + 1, rfl⟩) ops 0 0
  exact ⟨calls, C160_history sub_lawful (panicky_agrees []) (fun a b t => ⟨a - b, t + 1, rfl⟩) ops hN 0 0 h k⟩

/-- There are long searches: 40 nodes of level 1 take 40 calls, which is `5 log₂ 40 + 12 + 2` or more. -/
example : ((callsOf (SLM.exec (panicky []).logged 0 (.find 41)
      ⟨(SLM.run (panicky []) ⟨newSkipList, 0⟩ ((List.range 40).map fun i => (2 ^ 39, (.insert (i : Int) 0 : SMOp Int Int)))).2.sl, (0, [])⟩)).map
        List.length, 5 * Nat.log2 40 + 12 + 2 * 1) = (some 40, 39) := by
  decide +kernel

end Stl4go
