import Verif.Proofs.SkipListCost
import Verif.Props.SkipListM
/-!
# Property C105: searching is logarithmic on average

`drawing ops ws` makes the operations `ops`, fixed in advance, with the random words `ws`. Sums range over all sequences of words, so
that a sum divided by their number, `(2 ^ 64) ^ ops.length`, is the average over independent uniform words. The bounds are multiplied
by 2 and by this number to stay within the natural numbers.
-/
namespace Stl4go
open Finset
variable {K V τ : Type} {cmp : CmpM K τ} {c : K → K → Int}

/-- C105: after `N` insertions and any other operations, one more operation makes on average at most `(5 log₂ N + 17) / 2` calls of the
compare function. -/
theorem C105_average (hc : LawfulCmp c) (ha : AgreesWith cmp c) (ht : ∀ a b t, ∃ r t', cmp a b t = .ok r t')
    (ops : List (SMOp K V)) (hN : inserts ops ≤ 2 ^ 38) (t : τ) (rnd : Nat) (op : SMOp K V) (t' : τ)
    {calls : (Fin ops.length → Fin (2 ^ 64)) → List (K × K)}
    (hcalls : ∀ ws, callsOf (SLM.exec cmp.logged rnd op ⟨(SLM.run cmp ⟨newSkipList, t⟩ (drawing ops ws)).2.sl, (t', [])⟩) = some (calls ws)) :
    2 * ∑ ws, (calls ws).length ≤ (5 * (inserts ops).log2 + 17) * (2 ^ 64) ^ ops.length := by
  have hrun : ∀ ws : Words ops.length, ∃ sl, (∃ obs, SL.run (.func c) newSkipList (withWords (wordAt ws) 0 ops) = .ret (sl, obs)) ∧
      (calls ws).length ≤ (opCalls c sl op).length := by
    intro ws
    obtain ⟨sl, ids, obs, e, hi, _⟩ := SLInv.run_labels hc (wordAt ws) ops 0 (SLInv.new (V := V) (SLImpl.func c).less)
    refine ⟨sl, ⟨obs, e⟩, ?_⟩
    obtain ⟨t1, e1⟩ := SLM.run_total ha ht _ t e
    have h1 := hcalls ws
    rw [drawing_eq, e1] at h1
    obtain ⟨sl', ids', a1, _⟩ := hi.exec (impl := .func c) hc rnd op
    exact ((exec_follows ha.logged (t', []) a1).calls h1).length_le
  choose sls hs hle using hrun
  refine Nat.le_trans (Nat.mul_le_mul_left 2 (sum_le_sum fun ws _ => hle ws)) ?_
  exact sum_calls hc (Nat.le_refl _) (Nat.le_refl _) hN op hs

/-- C105: the calls are defined for all words. -/
theorem C105_defined (hc : LawfulCmp c) (ha : AgreesWith cmp c) (ht : ∀ a b t, ∃ r t', cmp a b t = .ok r t')
    (ops : List (SMOp K V)) (t : τ) (rnd : Nat) (op : SMOp K V) (t' : τ) :
    ∃ calls : (Fin ops.length → Fin (2 ^ 64)) → List (K × K),
      ∀ ws, callsOf (SLM.exec cmp.logged rnd op ⟨(SLM.run cmp ⟨newSkipList, t⟩ (drawing ops ws)).2.sl, (t', [])⟩) = some (calls ws) := by
  have h : ∀ ws : Fin ops.length → Fin (2 ^ 64), ∃ l,
      callsOf (SLM.exec cmp.logged rnd op ⟨(SLM.run cmp ⟨newSkipList, t⟩ (drawing ops ws)).2.sl, (t', [])⟩) = some l := by
    intro ws
    obtain ⟨ids, l, _, hi, _⟩ := history_lawful hc ha (drawing ops ws) t
    obtain ⟨sl', ids', a1, _⟩ := hi.exec (impl := .func c) hc rnd op
    have hf := exec_follows ha.logged (t', []) a1
    obtain ⟨s, e⟩ := callAll_total (cmp := cmp.logged) (fun a b s => by
      obtain ⟨r, t', e⟩ := ht a b s.1
      exact ⟨r, _, by simp only [CmpM.logged, e]; rfl⟩) (opCalls c (SLM.run cmp ⟨newSkipList, t⟩ (drawing ops ws)).2.sl op) (t', [])
    simp only [Follows, e] at hf
    exact ⟨_, by rw [hf]; rfl⟩
  choose calls hcalls using h
  exact ⟨calls, hcalls⟩

/-- C105: a whole history makes on average at most `(5 log₂ N + 17) / 2` calls for each operation. -/
theorem C105_history (hc : LawfulCmp c) (ha : AgreesWith cmp c) (ht : ∀ a b t, ∃ r t', cmp a b t = .ok r t')
    (ops : List (SMOp K V)) (hN : inserts ops ≤ 2 ^ 38) (t : τ) :
    2 * ∑ ws, (SLM.run cmp.logged ⟨newSkipList, (t, [])⟩ (drawing ops ws)).2.st.2.length ≤
      (5 * (inserts ops).log2 + 17) * ops.length * (2 ^ 64) ^ ops.length := by
  have e : ∀ ws, (SLM.run cmp.logged ⟨newSkipList, (t, [])⟩ (drawing ops ws)).2.st.2.length =
      totalCalls c newSkipList (withWords (wordAt ws) 0 ops) := by
    intro ws
    obtain ⟨sl, ids, obs, e, _⟩ := SLInv.run_labels hc (wordAt ws) ops 0 (SLInv.new (V := V) (SLImpl.func c).less)
    rw [drawing_eq, run_log ha ht _ t [] e]
    simp
  simp only [e]
  exact sum_total hc hN ops (Nat.le_refl _) (Nat.le_refl _)

open Classical in
/-- C105: of the 2⁶⁴ random words, 2^(65 - l) give a new node level `l` or more, if the list is long enough for this level. -/
theorem C105_levels (sl : SL K V) (len : Nat) (hlen : sl.length = len) {l : Nat} (hl : 1 ≤ l) :
    (univ.filter fun w : Fin (2 ^ 64) => ∃ l', sl.randomLevel w = Outcome.ret l' ∧ l ≤ l').card =
      if l ≤ 3 ∨ l ≤ 40 ∧ 2 ^ (l - 3) ≤ len then 2 ^ (65 - l) else 0 := by
  have hiff : ∀ w : Fin (2 ^ 64), (∃ l', sl.randomLevel w = .ret l' ∧ l ≤ l') ↔ (w : Nat) % 2 ^ 40 < 2 ^ (41 - l) ∧ LevelOpen len l := by
    intro w
    rw [← levelFor_iff hl]
    have := SL.randomLevel_eq (sl := sl) hlen w
    refine ⟨fun ⟨l', h1, h2⟩ => ?_, fun h => ⟨_, this, h⟩⟩
    rw [this] at h1; injection h1 with h1; subst h1; exact h2
  simp only [hiff]
  split
  · next h =>
    have h' : LevelOpen len l := h
    simp only [h', and_true]
    rw [card_low (by omega)]
    congr 1
    omega
  · next h =>
    have h' : ¬ LevelOpen len l := h
    simp [h']

/-- For a million insertions the bound is 56 calls; the worst case is linear, see C103. -/
example : (5 * Nat.log2 1000000 + 17) / 2 = 56 := by decide +kernel

/-- The hypotheses hold for a function that counts its calls. -/
example (ops : List (SMOp Int Int)) (hN : inserts ops ≤ 2 ^ 38) :
    2 * ∑ ws, (SLM.run (panicky []).logged ⟨newSkipList, (0, [])⟩ (drawing ops ws)).2.st.2.length ≤
      (5 * (inserts ops).log2 + 17) * ops.length * (2 ^ 64) ^ ops.length :=
  C105_history sub_lawful (panicky_agrees []) (fun a b t => ⟨a - b, t + 1, rfl⟩) ops hN 0

/-- Which calls there are depends on the words: 3 of them for small levels, 2 if the second node is high. -/
example : ((SLM.run (panicky []).logged ⟨newSkipList, (0, [])⟩
      (drawing [.insert 1 10, .insert 2 20, .find 3] fun _ => Fin.ofNat _ (2 ^ 39))).2.st.2.length,
    (SLM.run (panicky []).logged ⟨newSkipList, (0, [])⟩
      (drawing [.insert 1 10, .insert 2 20, .find 3] fun i => Fin.ofNat _ (if i.val = 0 then 2 ^ 39 else 2 ^ 38))).2.st.2.length) = (3, 2) := by
  decide +kernel

end Stl4go
