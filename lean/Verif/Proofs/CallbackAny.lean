import Verif.Spec.CallbackAny
import Verif.Proofs.CallbackSearch
/-! # Lemmas for C111 -/
namespace Stl4go
variable {T R α β σ ρ : Type}

theorem CS.get_elem (a : Sl) (s : CS T ρ) (i : Nat) (h : i < a.len) : CS.on (a.get i) s = .ok (s.mem.cell (a.off + i)) s := by
  rw [CS.on_ok (Sl.get_ok a s.mem i h), Sl.read_getElem]

theorem CS.put_elem (a : Sl) (s : CS T ρ) (i : Nat) (x : T) (h : i < a.len) : CS.on (a.put i x) s = .ok () (CS.store a i x s) := by
  apply CS.on_ok
  unfold Sl.put
  rw [if_pos (by omega)]
  simp

theorem findIfLoopC_any (a : Sl) (cond : T → GoM (CS T ρ) Bool) (n i : Nat) (s : CS T ρ) (h : i + n ≤ a.len) :
    findIfLoopC a cond n i s = (callsUntil id (withElem a cond) (List.range' i n) s).2.yields
      (if true ∈ (callsUntil id (withElem a cond) (List.range' i n) s).1 then
        (((i + (callsUntil id (withElem a cond) (List.range' i n) s).1.length - 1 : Nat) : Int), true) else (-1, false)) := by
  induction n generalizing i s with
  | zero => rfl
  | succ n ih =>
    simp only [findIfLoopC, GoM.bind_def, CS.get_elem a s i (by omega), List.range'_succ]
    cases hc : cond (s.mem.cell (a.off + i)) s with
    | panic s' => simp [callsUntil, withElem, hc, CallEnd.yields]
    | diverge => simp [callsUntil, withElem, hc, CallEnd.yields]
    | ok b s' =>
      cases b with
      | true => simp [callsUntil, withElem, hc, CallEnd.yields]
      | false =>
        simp only [Bool.false_eq_true, if_false]
        rw [ih _ _ (by omega)]
        have e : callsUntil id (withElem a cond) (i :: List.range' (i + 1) n) s =
            (false :: (callsUntil id (withElem a cond) (List.range' (i + 1) n) s').1, (callsUntil id (withElem a cond) (List.range' (i + 1) n) s').2) := by
          simp [callsUntil, withElem, hc]
        simp only [e, List.mem_cons, reduceCtorEq, false_or, List.length_cons]
        congr 2
        congr 2
        omega

theorem anyOfLoopC_any (a : Sl) (cond : T → GoM (CS T ρ) Bool) (n i : Nat) (s : CS T ρ) (h : i + n ≤ a.len) :
    anyOfLoopC a cond n i s = (callsUntil id (withElem a cond) (List.range' i n) s).2.yields
      (decide (true ∈ (callsUntil id (withElem a cond) (List.range' i n) s).1)) := by
  induction n generalizing i s with
  | zero => rfl
  | succ n ih =>
    simp only [anyOfLoopC, GoM.bind_def, CS.get_elem a s i (by omega), List.range'_succ]
    cases hc : cond (s.mem.cell (a.off + i)) s with
    | panic s' => simp [callsUntil, withElem, hc, CallEnd.yields]
    | diverge => simp [callsUntil, withElem, hc, CallEnd.yields]
    | ok b s' =>
      cases b with
      | true => simp [callsUntil, withElem, hc, CallEnd.yields]
      | false =>
        simp only [Bool.false_eq_true, if_false]
        rw [ih _ _ (by omega)]
        simp [callsUntil, withElem, hc]

theorem allOfLoopC_any (a : Sl) (cond : T → GoM (CS T ρ) Bool) (n i : Nat) (s : CS T ρ) (h : i + n ≤ a.len) :
    allOfLoopC a cond n i s = (callsUntil (!·) (withElem a cond) (List.range' i n) s).2.yields
      (decide (false ∉ (callsUntil (!·) (withElem a cond) (List.range' i n) s).1)) := by
  induction n generalizing i s with
  | zero => rfl
  | succ n ih =>
    simp only [allOfLoopC, GoM.bind_def, CS.get_elem a s i (by omega), List.range'_succ]
    cases hc : cond (s.mem.cell (a.off + i)) s with
    | panic s' => simp [callsUntil, withElem, hc, CallEnd.yields]
    | diverge => simp [callsUntil, withElem, hc, CallEnd.yields]
    | ok b s' =>
      cases b with
      | false => simp [callsUntil, withElem, hc, CallEnd.yields]
      | true =>
        simp only [Bool.true_eq_false, if_false]
        rw [ih _ _ (by omega)]
        simp [callsUntil, withElem, hc]

theorem countIfLoopC_any (a : Sl) (cond : T → GoM (CS T ρ) Bool) (n i c : Nat) (s : CS T ρ) (h : i + n ≤ a.len) :
    countIfLoopC a cond n i c s = (callsAll (withElem a cond) (List.range' i n) s).2.yields
      (c + (callsAll (withElem a cond) (List.range' i n) s).1.count true) := by
  induction n generalizing i c s with
  | zero => rfl
  | succ n ih =>
    simp only [countIfLoopC, GoM.bind_def, CS.get_elem a s i (by omega), List.range'_succ]
    cases hc : cond (s.mem.cell (a.off + i)) s with
    | panic s' => simp [callsUntil, withElem, hc, CallEnd.yields]
    | diverge => simp [callsUntil, withElem, hc, CallEnd.yields]
    | ok b s' =>
      cases b with
      | false =>
        simp only [Bool.false_eq_true, if_false]
        rw [ih _ _ _ (by omega)]
        simp [callsUntil, withElem, hc]
      | true =>
        simp only [if_true]
        rw [ih _ _ _ (by omega)]
        have e : callsAll (withElem a cond) (i :: List.range' (i + 1) n) s =
            (true :: (callsAll (withElem a cond) (List.range' (i + 1) n) s').1, (callsAll (withElem a cond) (List.range' (i + 1) n) s').2) := by
          simp [callsAll, callsUntil, withElem, hc]
        simp only [e, List.count_cons_self]
        congr 1
        omega

theorem Vec.forEachLoopC_any (a : Sl) (cb : T → GoM (CS T ρ) Unit) (n i : Nat) (s : CS T ρ) (h : i + n ≤ a.len) :
    Vec.forEachLoopC a cb n i s = (callsAll (withElem a cb) (List.range' i n) s).2.yields () := by
  induction n generalizing i s with
  | zero => rfl
  | succ n ih =>
    simp only [Vec.forEachLoopC, GoM.bind_def, CS.get_elem a s i (by omega), List.range'_succ]
    cases hc : cb (s.mem.cell (a.off + i)) s with
    | panic s' => simp [callsUntil, withElem, hc, CallEnd.yields]
    | diverge => simp [callsUntil, withElem, hc, CallEnd.yields]
    | ok b s' =>
      simp only
      rw [ih _ _ (by omega)]
      simp [callsUntil, withElem, hc]

theorem Vec.forEachIfLoopC_any (a : Sl) (cb : T → GoM (CS T ρ) Bool) (n i : Nat) (s : CS T ρ) (h : i + n ≤ a.len) :
    Vec.forEachIfLoopC a cb n i s = (callsUntil (!·) (withElem a cb) (List.range' i n) s).2.yields () := by
  induction n generalizing i s with
  | zero => rfl
  | succ n ih =>
    simp only [Vec.forEachIfLoopC, GoM.bind_def, CS.get_elem a s i (by omega), List.range'_succ]
    cases hc : cb (s.mem.cell (a.off + i)) s with
    | panic s' => simp [callsUntil, withElem, hc, CallEnd.yields]
    | diverge => simp [callsUntil, withElem, hc, CallEnd.yields]
    | ok b s' =>
      cases b with
      | false => simp [callsUntil, withElem, hc, CallEnd.yields]
      | true =>
        simp only [Bool.true_eq_false, if_false]
        rw [ih _ _ (by omega)]
        simp [callsUntil, withElem, hc]

theorem CS.addr_elem (a : Sl) (s : CS T ρ) (i : Nat) (h : i < a.len) : CS.on (a.addr i) s = .ok (a.off + i) s := by
  rw [CS.on_ok (a := a.off + i) (m := s.mem)]
  unfold Sl.addr
  rw [if_pos (by omega)]
  simp

theorem Vec.forEachMutableLoopC_any (a : Sl) (cb : Nat → GoM (CS T ρ) Unit) (n i : Nat) (s : CS T ρ) (h : i + n ≤ a.len) :
    Vec.forEachMutableLoopC a cb n i s = (callsAll (fun k => cb (a.off + k)) (List.range' i n) s).2.yields () := by
  induction n generalizing i s with
  | zero => rfl
  | succ n ih =>
    simp only [Vec.forEachMutableLoopC, GoM.bind_def, CS.addr_elem a s i (by omega), List.range'_succ]
    cases hc : cb (a.off + i) s with
    | panic s' => simp [callsUntil, hc, CallEnd.yields]
    | diverge => simp [callsUntil, hc, CallEnd.yields]
    | ok b s' =>
      simp only
      rw [ih _ _ (by omega)]
      simp [callsUntil, hc]

theorem Vec.forEachMutableIfLoopC_any (a : Sl) (cb : Nat → GoM (CS T ρ) Bool) (n i : Nat) (s : CS T ρ) (h : i + n ≤ a.len) :
    Vec.forEachMutableIfLoopC a cb n i s = (callsUntil (!·) (fun k => cb (a.off + k)) (List.range' i n) s).2.yields () := by
  induction n generalizing i s with
  | zero => rfl
  | succ n ih =>
    simp only [Vec.forEachMutableIfLoopC, GoM.bind_def, CS.addr_elem a s i (by omega), List.range'_succ]
    cases hc : cb (a.off + i) s with
    | panic s' => simp [callsUntil, hc, CallEnd.yields]
    | diverge => simp [callsUntil, hc, CallEnd.yields]
    | ok b s' =>
      cases b with
      | false => simp [callsUntil, hc, CallEnd.yields]
      | true =>
        simp only [Bool.true_eq_false, if_false]
        rw [ih _ _ (by omega)]
        simp [callsUntil, hc]

theorem transformLoopC_any (a : Sl) (op : T → GoM (CS T ρ) T) (n i : Nat) (s : CS T ρ) (h : i + n ≤ a.len) :
    transformLoopC a op n i s = (callsAll (callThen (withElem a op) (fun r k => CS.store a k r)) (List.range' i n) s).2.yields () := by
  induction n generalizing i s with
  | zero => rfl
  | succ n ih =>
    simp only [transformLoopC, GoM.bind_def, CS.get_elem a s i (by omega), List.range'_succ]
    cases hc : op (s.mem.cell (a.off + i)) s with
    | panic s' => simp [callsUntil, callThen, withElem, hc, CallEnd.yields]
    | diverge => simp [callsUntil, callThen, withElem, hc, CallEnd.yields]
    | ok b s' =>
      simp only [CS.put_elem a s' i b (by omega)]
      rw [ih _ _ (by omega)]
      simp [callsUntil, callThen, withElem, hc]

theorem generateLoopC_any (a : Sl) (gen : GoM (CS T ρ) T) (n i : Nat) (s : CS T ρ) (h : i + n ≤ a.len) :
    generateLoopC a gen n i s = (callsAll (callThen (fun _ => gen) (fun r k => CS.store a k r)) (List.range' i n) s).2.yields () := by
  induction n generalizing i s with
  | zero => rfl
  | succ n ih =>
    simp only [generateLoopC, GoM.bind_def, List.range'_succ]
    cases hc : gen s with
    | panic s' => simp [callsUntil, callThen, hc, CallEnd.yields]
    | diverge => simp [callsUntil, callThen, hc, CallEnd.yields]
    | ok b s' =>
      simp only [CS.put_elem a s' i b (by omega)]
      rw [ih _ _ (by omega)]
      simp [callsUntil, callThen, hc]

theorem replaceIfLoopC_any (a : Sl) (pred : T → GoM (CS T ρ) Bool) (new : T) (n i : Nat) (s : CS T ρ) (h : i + n ≤ a.len) :
    replaceIfLoopC a pred new n i s =
      (callsAll (callThen (withElem a pred) (fun b k s => if b = true then CS.store a k new s else s)) (List.range' i n) s).2.yields () := by
  induction n generalizing i s with
  | zero => rfl
  | succ n ih =>
    simp only [replaceIfLoopC, GoM.bind_def, CS.get_elem a s i (by omega), List.range'_succ]
    cases hc : pred (s.mem.cell (a.off + i)) s with
    | panic s' => simp [callsUntil, callThen, withElem, hc, CallEnd.yields]
    | diverge => simp [callsUntil, callThen, withElem, hc, CallEnd.yields]
    | ok b s' =>
      cases b with
      | true =>
        simp only [if_true, GoM.bind_def, CS.put_elem a s' i new (by omega)]
        rw [ih _ _ (by omega)]
        simp [callsUntil, callThen, withElem, hc]
      | false =>
        simp only [Bool.false_eq_true, if_false]
        rw [ih _ _ (by omega)]
        simp [callsUntil, callThen, withElem, hc]

/-- What the caller of the loop of `RemoveIf` gets, from the calls with the counter `j`. -/
def CallEnd.counted (e : CallEnd (σ × Nat)) : Res σ Nat :=
  match e with
  | .done s => .ok s.2 s.1
  | .panicked s => .panic s.1
  | .hung => .diverge

theorem removeIfLoopC_any (a : Sl) (cond : T → GoM (CS T ρ) Bool) (n i j : Nat) (s : CS T ρ) (h : i + n ≤ a.len) (hj : j ≤ i) :
    removeIfLoopC a cond n i j s = (callsAll (removeStep a cond) (List.range' i n) (s, j)).2.counted ∧
    ∀ t k, (callsAll (removeStep a cond) (List.range' i n) (s, j)).2 = .done (t, k) → k ≤ i + n := by
  induction n generalizing i j s with
  | zero =>
    refine ⟨rfl, fun t k hk => ?_⟩
    have : CallEnd.done (s, j) = CallEnd.done (t, k) := hk
    injection this with this
    injection this with _ this
    omega
  | succ n ih =>
    simp only [removeIfLoopC, GoM.bind_def, CS.get_elem a s i (by omega), List.range'_succ]
    cases hc : cond (s.mem.cell (a.off + i)) s with
    | panic s' => simp [callsUntil, removeStep, withElem, hc, CallEnd.counted]
    | diverge => simp [callsUntil, removeStep, withElem, hc, CallEnd.counted]
    | ok b s' =>
      cases b with
      | true =>
        simp only [Bool.true_eq_false, if_false]
        have hi := ih (i + 1) j s' (by omega) (by omega)
        rw [hi.1]
        have e : (callsAll (removeStep a cond) (i :: List.range' (i + 1) n) (s, j)).2 = (callsAll (removeStep a cond) (List.range' (i + 1) n) (s', j)).2 := by
          simp [callsAll, callsUntil, removeStep, withElem, hc]
        rw [e]
        exact ⟨rfl, fun t k hk => by have := hi.2 t k hk; omega⟩
      | false =>
        simp only [if_true, GoM.bind_def, CS.put_elem a s' j _ (by omega)]
        have hi := ih (i + 1) (j + 1) (CS.store a j (s.mem.cell (a.off + i)) s') (by omega) (by omega)
        rw [hi.1]
        have e : (callsAll (removeStep a cond) (i :: List.range' (i + 1) n) (s, j)).2 =
            (callsAll (removeStep a cond) (List.range' (i + 1) n) (CS.store a j (s.mem.cell (a.off + i)) s', j + 1)).2 := by
          simp [callsAll, callsUntil, removeStep, withElem, hc]
        rw [e]
        exact ⟨rfl, fun t k hk => by have := hi.2 t k hk; omega⟩

end Stl4go
