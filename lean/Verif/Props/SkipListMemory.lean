import Verif.Proofs.SkipListMemory
import Verif.Spec.SkipListMemory
/-!
# C144: the memory of a skip list
-/
namespace Stl4go
open Finset
variable {K V : Type} {impl : SLImpl K} {sl : SL K V}

/-- C144: if the operations are fixed in advance and the random words are uniform, a skip list stores on average at least 7/4 and at most
2 links for each of its entries. -/
theorem C144_average (hl : impl.Lawful) (ops : List (SMOp K V)) : ∃ (len : Nat) (sls : (Fin ops.length → Fin (2 ^ 64)) → SL K V),
    (∀ ws, SL.Built impl (drawing ops ws) (sls ws) ∧ (sls ws).length = len) ∧
      7 * len * (2 ^ 64) ^ ops.length ≤ 4 * ∑ ws, (sls ws).linkSlots ∧ ∑ ws, (sls ws).linkSlots ≤ 2 * len * (2 ^ 64) ^ ops.length := by
  obtain ⟨sls, h1, h2, h3⟩ := links_average hl ops
  exact ⟨_, sls, h1, h2, h3⟩

/-- C144: the nodes counted are those of the entries, in order, and each of them has between 1 and 40 links, whatever the random words. -/
theorem C144_nodes (hl : impl.Lawful) {h : List (Nat × SMOp K V)} (hb : SL.Built impl h sl) :
    sl.entryNodes.map (fun n => (n.key, n.value)) = SMap.after impl.less h ∧ sl.length ≤ sl.linkSlots ∧ sl.linkSlots ≤ 40 * sl.length := by
  obtain ⟨ids, hi⟩ := hb.inv hl
  obtain ⟨h1, h2⟩ := hi.linkSlots_bounds
  have e : sl.length = (SMap.after impl.less h).length := by show sl.len = _; rw [hi.len_eq, hi.len_m]
  refine ⟨hi.entryNodes.2, ?_, ?_⟩ <;> omega

/-- C144: the average level of a new node of a list with `len` entries is 2 - 2^(1-J), where J is the highest level it may have. -/
theorem C144_level (sl : SL K V) (len : Nat) (hlen : sl.length = len) (level : Fin (2 ^ 64) → Nat)
    (hw : ∀ w : Fin (2 ^ 64), sl.randomLevel w = .ret (level w)) :
    ∑ w, level w + 2 ^ (65 - (if len = 0 then 3 else min 40 (Nat.log2 len + 3))) = 2 ^ 65 := by
  have e : level = fun w : Fin (2 ^ 64) => levelFor w len := funext fun w => by
    have := hw w
    rw [SL.randomLevel_eq hlen] at this
    injection this with this
    exact this.symm
  subst e
  exact sum_word_level len

/-- Two nodes of levels 1 and 3: four links, so the number of links does depend on the words. -/
example : (match SL.run (.func fun a b : Int => a - b) (newSkipList : SL Int Int) [(2 ^ 39, .insert 1 10), (2 ^ 37, .insert 2 20)] with
    | .ret (sl, _) => (sl.linkSlots, sl.length, sl.entryNodes.map (fun n => n.next.length))
    | _ => (0, 0, [])) = (4, 2, [1, 3]) := by decide +kernel

example : (match SL.run (.func fun a b : Int => a - b) (newSkipList : SL Int Int) [(2 ^ 39, .insert 1 10), (2 ^ 39, .insert 2 20)] with
    | .ret (sl, _) => (sl.linkSlots, sl.length)
    | _ => (0, 0)) = (2, 2) := by decide +kernel

/-- For lists of up to one entry the average level is 7/4; for a million entries it is 2 - 2^-21. -/
example : (2 ^ 65 - 2 ^ (65 - 3)) * 4 = 7 * 2 ^ 64 ∧ min 40 (Nat.log2 1000000 + 3) = 22 := by decide +kernel

end Stl4go
