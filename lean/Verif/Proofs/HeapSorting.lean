import Verif.Spec.HeapSorting
import Verif.Proofs.SortAny
import Verif.Proofs.CallCost
/-! # Lemmas: sorting with the functions of `heap.go` -/
namespace Stl4go
variable {T τ α : Type} {less : LessM T τ} {a h hp : Sl}

/-- What comes after a result, but for the slice variable. -/
def Res.thenRun (hp : Sl) (p : SortProg) (x : SortIface (HS T τ)) : Res (HS T τ) α → Res (HS T τ) Unit
  | .ok _ s => p.run x { s with heap := hp }
  | .panic s => .panic { s with heap := hp }
  | .diverge => .diverge

theorem run_less (i j : Nat) (k : Bool → SortProg) (hi : i < a.len) (hj : j < a.len) (s : HS T τ) :
    (SortProg.less i j k).run (funcSortableA a less.wide) s =
      match less (s.mem.cell (a.off + i)) (s.mem.cell (a.off + j)) s.st with
      | .ok b t => (k b).run (funcSortableA a less.wide) { s with st := t }
      | .panic t => .panic { s with st := t }
      | .diverge => .diverge := by
  simp only [SortProg.run, funcSortableA, GoM.bind_def, HS.on_get hi, HS.on_get hj, LessM.wide, HS.call]
  cases less (s.mem.cell (a.off + i)) (s.mem.cell (a.off + j)) s.st <;> rfl

theorem run_swap (i j : Nat) (k : SortProg) (hi : i < a.len) (hj : j < a.len) (s : HS T τ) :
    (SortProg.swap i j k).run (funcSortableA a less.wide) s = k.run (funcSortableA a less.wide) (s.exchange a i j) := by
  have e : (funcSortableA a less.wide).swap i j s = .ok () (s.exchange a i j) := sortSwap_exchange hi hj s
  simp only [SortProg.run, GoM.bind_def, e]

theorem siftProg_run (ho : h.off = a.off) (hla : h.len ≤ a.len) (n : Nat) (hn : n ≤ h.len) (k : SortProg) (hp : Sl) : ∀ (f i : Nat) (s : HS T τ), n - i < f →
    (siftProg n k f i).run (funcSortableA a less.wide) { s with heap := hp } =
      Res.thenRun hp k (funcSortableA a less.wide) (heapDownFuncLoopM (fun x y => less y x) f h i n s) := by
  intro f
  induction f with
  | zero => intro i s hf; omega
  | succ f ih =>
    intro i s hf
    unfold siftProg heapDownFuncLoopM
    simp only
    by_cases hc : 2 * i + 1 ≥ n
    · rw [if_pos hc, if_pos hc]; rfl
    · rw [if_neg hc, if_neg hc]
      have next : ∀ (j : Nat) (s : HS T τ), j < n → i < j → (SortProg.less i j fun b => if b then .swap i j (siftProg n k f j) else k).run (funcSortableA a less.wide) { s with heap := hp } =
          Res.thenRun hp k (funcSortableA a less.wide) ((do
            let x ← HS.on (h.get (j : Int))
            let y ← HS.on (h.get (i : Int))
            let b ← HS.call (less y x)
            if !b then pure i
            else do
              heapSwapM h (i : Int) (j : Int)
              heapDownFuncLoopM (fun x y => less y x) f h j n : GoM (HS T τ) Nat) s) := by
        intro j s hj hij
        rw [run_less i j _ (by omega) (by omega)]
        simp only [GoM.bind_def, HS.on_get (show j < h.len by omega), HS.on_get (show i < h.len by omega), HS.call, ho]
        cases less (s.mem.cell (a.off + i)) (s.mem.cell (a.off + j)) s.st with
        | ok b t =>
          cases b with
          | false => rfl
          | true =>
            simp only [if_true, Bool.not_true, Bool.false_eq_true, if_false, GoM.bind_def]
            rw [run_swap i j _ (by omega) (by omega), heapSwapM_exchange (by omega) (by omega)]
            have e := ih j (HS.exchange h i j { s with st := t }) (by omega)
            simp only [HS.exchange, ho] at e ⊢
            exact e
        | panic t => rfl
        | diverge => rfl
      unfold heapSmallerChildFuncM
      by_cases h2 : 2 * i + 1 + 1 < n
      · rw [if_pos h2, if_pos h2]
        rw [run_less _ _ _ (by omega) (by omega)]
        simp only [GoM.bind_def, HS.on_get (show 2 * i + 1 < h.len by omega), HS.on_get (show 2 * i + 1 + 1 < h.len by omega), HS.call, ho]
        cases less (s.mem.cell (a.off + (2 * i + 1))) (s.mem.cell (a.off + (2 * i + 1 + 1))) s.st with
        | ok b t => exact next (if b then 2 * i + 1 + 1 else 2 * i + 1) { s with st := t } (by split <;> omega) (by split <;> omega)
        | panic t => rfl
        | diverge => rfl
      · rw [if_neg h2, if_neg h2]
        exact next (2 * i + 1) s (by omega) (by omega)

theorem heapDown_thenRun (n i : Nat) (p : SortProg) (x : SortIface (HS T τ)) (s : HS T τ) :
    Res.thenRun hp p x (heapDownFuncM h i n less s) = Res.thenRun hp p x (heapDownFuncLoopM less (n + 1) h i n s) := by
  simp only [heapDownFuncM, GoM.bind_def]
  cases heapDownFuncLoopM less (n + 1) h i n s <;> rfl

theorem heapifyProg_run (k : SortProg) (hp : Sl) : ∀ (i : Nat) (s : HS T τ),
    (heapifyProg a.len k i).run (funcSortableA a less.wide) { s with heap := hp } =
      Res.thenRun hp k (funcSortableA a less.wide) (makeHeapFuncLoopM (fun x y => less y x) a a.len i s)
  | 0, s => rfl
  | i + 1, s => by
    rw [heapifyProg, siftProg_run (h := a) rfl (Nat.le_refl _) _ (Nat.le_refl _) _ hp _ _ _ (by omega), ← heapDown_thenRun]
    simp only [makeHeapFuncLoopM, GoM.bind_def]
    cases heapDownFuncM a i a.len (fun x y => less y x) s with
    | ok b s' => exact heapifyProg_run k hp i s'
    | panic s' => rfl
    | diverge => rfl

theorem pop_cut (n : Nat) (s : HS T τ) (hn : s.heap.len = n + 1) (hc : s.heap.len ≤ s.heap.cap) :
    popHeapFuncM less s = cutTo s.heap n ((do heapSwapM s.heap ((0 : Nat) : Int) (n : Int); let _ ← heapDownFuncM s.heap 0 n less; pure () : GoM (HS T τ) Unit) s) := by
  have hi : ((s.heap.len : Int) - 1) = (n : Nat) := by omega
  rw [← cutTo_eq s.heap n (by omega) hc]
  simp only [popHeapFuncM, GoM.bind_def, HS.recv, hi, Int.toNat_natCast]
  cases heapSwapM s.heap ((0 : Nat) : Int) (n : Int) s with
  | ok u s1 =>
    simp only
    cases heapDownFuncM s.heap 0 n less s1 <;> rfl
  | panic s1 => rfl
  | diverge => rfl

theorem drainProg_run (hp : Sl) (hac : a.len ≤ a.cap) : ∀ (n : Nat) (s : HS T τ), n ≤ a.len → s.heap = { a with len := n } →
    (drainProg n).run (funcSortableA a less.wide) { s with heap := hp } = Res.besides hp (popTimes (fun x y => less y x) n s)
  | 0, s, _, _ => rfl
  | n + 1, s, hn, hs => by
    simp only [popTimes, GoM.bind_def]
    rw [pop_cut n s (by rw [hs]) (by rw [hs]; exact Nat.le_trans hn hac)]
    rw [drainProg, run_swap 0 n _ (by omega) (by omega)]
    have e1 : s.heap.off = a.off := by rw [hs]
    have e2 : s.heap.len = n + 1 := by rw [hs]
    simp only [GoM.bind_def]
    rw [heapSwapM_exchange (by omega) (by omega)]
    have e := siftProg_run (less := less) (h := s.heap) (a := a) e1 (by omega) n (by omega) (drainProg n) hp (n + 1) 0 (s.exchange a 0 n) (by omega)
    rw [← heapDown_thenRun] at e
    have e3 : s.exchange s.heap 0 n = s.exchange a 0 n := by simp only [HS.exchange, e1]
    rw [e3]
    refine Eq.trans ?_ (e.trans ?_)
    · rfl
    · dsimp only
      cases heapDownFuncM s.heap 0 n (fun x y => less y x) (s.exchange a 0 n) with
      | ok b s' =>
        have := drainProg_run hp hac n { s' with heap := { s.heap with len := n } } (by omega) (by rw [hs])
        refine Eq.trans this ?_
        have e5 : cutTo s.heap n ((pure () : GoM (HS T τ) Unit) s') = .ok (s'.mem.cell (s.heap.off + n)) { s' with heap := { s.heap with len := n } } := rfl
        dsimp only
        rw [e5]
        dsimp only
        cases popTimes (fun x y => less y x) n { s' with heap := { s.heap with len := n } } <;> rfl
      | panic s' => rfl
      | diverge => rfl

theorem heapSortM_run (hac : a.len ≤ a.cap) (s : HS T τ) : Res.besides s.heap (heapSortM a less s) = sortFuncA heapSortProg a less.wide s := by
  have e := heapifyProg_run (a := a) (less := less) (drainProg a.len) s.heap (a.len / 2) s
  refine Eq.trans ?_ e.symm
  simp only [heapSortM, makeHeapFuncM, GoM.bind_def]
  cases makeHeapFuncLoopM (fun x y => less y x) a a.len (a.len / 2) s with
  | ok u s' =>
    have := drainProg_run (less := less) s.heap hac a.len { s' with heap := a } (Nat.le_refl _) rfl
    refine Eq.trans ?_ this.symm
    simp only [HS.assign]
    cases popTimes (fun x y => less y x) a.len { s' with heap := a } <;> rfl
  | panic s' => rfl
  | diverge => rfl

/-! ## Positions -/

theorem SortProg.Within.mono {n m : Nat} (hnm : n ≤ m) (p : SortProg) : p.Within n → p.Within m := by
  induction p with
  | done => exact fun _ => trivial
  | less i j k ih => exact fun ⟨h1, h2, h3⟩ => ⟨by omega, by omega, fun b => ih b (h3 b)⟩
  | swap i j k ih => exact fun ⟨h1, h2, h3⟩ => ⟨by omega, by omega, ih h3⟩

theorem siftProg_within {n m : Nat} (hn : n ≤ m) {k : SortProg} (hk : k.Within m) : ∀ f i, (siftProg n k f i).Within m
  | 0, _ => hk
  | f + 1, i => by
    unfold siftProg
    simp only
    split
    · exact hk
    · have next : ∀ j, j < n → (SortProg.less i j fun b => if b then .swap i j (siftProg n k f j) else k).Within m := by
        intro j hj
        refine ⟨by omega, by omega, fun b => ?_⟩
        cases b
        · exact hk
        · exact ⟨by omega, by omega, siftProg_within hn hk f j⟩
      split
      · exact ⟨by omega, by omega, fun b => next _ (by split <;> omega)⟩
      · exact next _ (by omega)

theorem heapifyProg_within {n : Nat} {k : SortProg} (hk : k.Within n) : ∀ i, (heapifyProg n k i).Within n
  | 0 => hk
  | i + 1 => siftProg_within (Nat.le_refl n) (heapifyProg_within hk i) _ _

theorem drainProg_within : ∀ n, (drainProg n).Within n
  | 0 => trivial
  | n + 1 => ⟨by omega, by omega, siftProg_within (by omega) ((drainProg_within n).mono (by omega)) _ _⟩

theorem heapSort_inside : SortsInside heapSortProg := fun n => heapifyProg_within (drainProg_within n) _

theorem SortProg.Within.onList (l : T → T → Bool) (p : SortProg) : ∀ xs : List T, p.Within xs.length → ∃ out, p.onList l xs = some out := by
  induction p with
  | done => exact fun xs _ => ⟨xs, rfl⟩
  | less i j k ih =>
    intro xs ⟨h1, h2, h3⟩
    simp only [SortProg.onList, List.getElem?_eq_getElem h1, List.getElem?_eq_getElem h2]
    exact ih _ xs (h3 _)
  | swap i j k ih =>
    intro xs ⟨h1, h2, h3⟩
    simp only [SortProg.onList, List.getElem?_eq_getElem h1, List.getElem?_eq_getElem h2]
    exact ih _ (by simpa using h3)

/-! ## Counting -/

/-- `countedLess` as a comparison function with a variable of its own. -/
def countedM (l : T → T → Bool) : LessM T Nat := fun x y t => .ok (l x y) (t + 1)

theorem countedM_wide (l : T → T → Bool) : (countedM l).wide = countedLess l := rfl

theorem countedM_raises (l : T → T → Bool) (x y : T) (s : HS T Nat) : RaisesBy (fun s : HS T Nat => s.st) 1 s ((countedM l).wide x y s) := Nat.le_refl _

theorem make_raises (l : T → T → Bool) (s : HS T Nat) : RaisesBy (fun s : HS T Nat => s.st) (2 * a.len) s (makeHeapFuncM a (countedM l) s) := by
  have := (makeHeapFuncA_runs (less := (countedM l).wide) (a := a) s).raises (μ := id) (c := 1) (countedM_raises l)
  rw [makeHeapFuncA, makeHeapFuncLoopA_wide, Nat.mul_one] at this
  exact this

theorem pop_raises (l : T → T → Bool) (n : Nat) (s : HS T Nat) (hn : s.heap.len = n + 1) (hc : s.heap.len ≤ s.heap.cap) :
    (∀ v s', popHeapFuncM (countedM l) s = .ok v s' → s'.heap = { s.heap with len := n }) ∧
      RaisesBy (fun s : HS T Nat => s.st) (2 * Nat.log2 n) s (popHeapFuncM (countedM l) s) := by
  rw [pop_cut n s hn hc]
  constructor
  · intro v s' e
    generalize (do heapSwapM s.heap ((0 : Nat) : Int) (n : Int); let _ ← heapDownFuncM s.heap 0 n (countedM l); pure () : GoM (HS T Nat) Unit) s = r at e
    cases r <;> cases e
    rfl
  · refine cutTo_raises (μ := id) ?_
    simp only [GoM.bind_def]
    rw [heapSwapM_exchange (by omega) (by omega)]
    have := (heapDownFuncA_runs (less := (countedM l).wide) (a := s.heap) 0 n (s.exchange s.heap 0 n) (by omega)).raises (μ := id) (c := 1) (countedM_raises l)
    rw [heapDownFuncA_wide] at this
    simp only [Nat.zero_add, Nat.div_one, Nat.mul_one] at this
    dsimp only
    cases e : heapDownFuncM s.heap 0 n (countedM l) (s.exchange s.heap 0 n) <;> rw [e] at this <;> exact this

theorem popTimes_raises (l : T → T → Bool) (m : Nat) : ∀ (n : Nat) (s : HS T Nat), n ≤ m → s.heap.len = n → s.heap.len ≤ s.heap.cap →
    RaisesBy (fun s : HS T Nat => s.st) (2 * n * Nat.log2 m) s (popTimes (countedM l) n s)
  | 0, s, _, _, _ => Nat.le_add_right _ _
  | n + 1, s, hm, hn, hc => by
    obtain ⟨h1, h2⟩ := pop_raises l n s hn hc
    have hlog : Nat.log2 n ≤ Nat.log2 m := by
      by_cases h0 : n = 0
      · subst h0; exact Nat.zero_le _
      · exact (Nat.le_log2 (by omega)).2 (Nat.le_trans (Nat.log2_self_le h0) (by omega))
    have hmul : 2 * (n + 1) * Nat.log2 m = 2 * n * Nat.log2 m + 2 * Nat.log2 m := by rw [Nat.mul_add, Nat.add_mul]
    simp only [popTimes, GoM.bind_def]
    cases e : popHeapFuncM (countedM l) s with
    | ok v s' =>
      rw [e] at h2
      have hh := h1 v s' e
      have h3 := popTimes_raises l m n s' (by omega) (by rw [hh]) (by rw [hh]; simp only; omega)
      dsimp only
      simp only [RaisesBy] at h2
      cases e2 : popTimes (countedM l) n s' with
      | ok xs s2 => rw [e2] at h3; simp only [RaisesBy] at h3; show s2.st ≤ s.st + _; omega
      | panic s2 => rw [e2] at h3; simp only [RaisesBy] at h3; show s2.st ≤ s.st + _; omega
      | diverge => trivial
    | panic s' => rw [e] at h2; simp only [RaisesBy] at h2; show s'.st ≤ s.st + _; omega
    | diverge => trivial

end Stl4go
