import Verif.Spec.HeapPath
import Verif.Proofs.SliceCost
import Verif.Proofs.HeapMem
/-! # Heap functions move along one path -/
namespace Stl4go
variable {T τ α β ι : Type} {h : Sl} {P P1 : Nat → Prop} {s : HS T τ} {y : GoM (HS T τ) α} {Q : α → HS T τ → Prop}

/-! ## Paths -/

theorem above_refl (i : Nat) : Above i i := ⟨0, by simp⟩

theorem above_trans {i j k : Nat} (h1 : Above i j) (h2 : Above j k) : Above i k := by
  obtain ⟨a, ha⟩ := h1
  obtain ⟨b, hb⟩ := h2
  exact ⟨b + a, by rw [Nat.pow_add, ← Nat.div_div_eq_div_mul, hb, ha]⟩

theorem above_parent {i j : Nat} (hj : 0 < j) (h : i = (j - 1) / 2) : Above i j := ⟨1, by omega⟩

theorem above_le {i j : Nat} (h : Above i j) : i ≤ j := by
  obtain ⟨k, hk⟩ := h
  have := Nat.div_le_self (j + 1) (2 ^ k)
  omega

theorem atPath_child {i j p : Nat} (hj : 0 < j) (e : (j - 1) / 2 = i) (h : Above i p) : AtPath p j := Or.inr ⟨hj, by rw [e]; exact h⟩

/-! ## Runs that see certain positions only -/

/-- The call sees only positions `P` of `h`, and `Q` holds when it returns. -/
def Along (h : Sl) (P : Nat → Prop) (s : HS T τ) (y : GoM (HS T τ) α) (Q : α → HS T τ → Prop) : Prop := SeesAt h P s y ∧ ∀ a s', y s = .ok a s' → Q a s'

theorem Along.mono (hx : Along h P1 s y Q) (sub : ∀ i, P1 i → P i) : Along h P s y Q := by
  obtain ⟨⟨L, hL, hs⟩, hq⟩ := hx
  refine ⟨⟨L, fun k hk => ?_, hs⟩, hq⟩
  obtain ⟨i, hi, e⟩ := hL k hk
  exact ⟨i, sub i hi, e⟩

theorem Along.pure {a : α} (hq : Q a s) : Along h P s (Pure.pure a) Q :=
  ⟨⟨[], fun _ h => (nomatch h), Sees.pure a s⟩, fun _ _ e => by cases e; exact hq⟩

theorem Along.diverge : Along h P s (GoM.diverge : GoM (HS T τ) α) Q := ⟨⟨[], fun _ h => (nomatch h), fun _ _ _ => rfl⟩, fun _ _ e => by cases e⟩

theorem Along.bind {g : α → GoM (HS T τ) β} {Q2 : β → HS T τ → Prop} (hx : Along h P s y Q)
    (hg : ∀ a s', y s = .ok a s' → Q a s' → Along h P s' (g a) Q2) : Along h P s (y >>= g) Q2 := by
  obtain ⟨⟨L, hL, hs⟩, hq⟩ := hx
  cases ey : y s with
  | ok a s' =>
    obtain ⟨⟨L2, hL2, hs2⟩, hq2⟩ := hg a s' ey (hq a s' ey)
    refine ⟨⟨L ++ L2, fun k hk => ?_, hs.bind ey hs2⟩, fun b s2 eb => ?_⟩
    · rcases List.mem_append.1 hk with h | h
      · exact hL k h
      · exact hL2 k h
    · rw [GoM.bind_def, ey] at eb; exact hq2 b s2 eb
  | panic s' =>
    refine ⟨⟨L, hL, fun m ht hm => ?_⟩, fun b s2 eb => ?_⟩
    · have := hs m ht hm
      rw [ey] at this
      obtain ⟨m', e', o'⟩ := this
      rw [GoM.bind_def, ey, GoM.bind_def, e']
      exact ⟨m', rfl, o'⟩
    · rw [GoM.bind_def, ey] at eb; cases eb
  | diverge =>
    refine ⟨⟨L, hL, fun m ht hm => ?_⟩, fun b s2 eb => ?_⟩
    · have := hs m ht hm
      rw [ey] at this
      rw [GoM.bind_def, ey, GoM.bind_def, (show y (HasMem.put s m) = .diverge from this)]
      rfl
    · rw [GoM.bind_def, ey] at eb; cases eb

/-- The positions that the whole run sees may depend on how it goes on. -/
theorem Along.pick {g : α → GoM (HS T τ) β} {Q2 : β → HS T τ → Prop} {C : ι → Prop} {R : ι → Nat → Prop} (hx : Along h P1 s y Q)
    (sub : ∀ p, C p → ∀ i, P1 i → R p i) (h0 : ∃ p, C p)
    (hg : ∀ a s', y s = .ok a s' → Q a s' → ∃ p, C p ∧ Along h (R p) s' (g a) Q2) : ∃ p, C p ∧ Along h (R p) s (y >>= g) Q2 := by
  cases ey : y s with
  | ok a s' =>
    obtain ⟨p, hp, hr⟩ := hg a s' ey (hx.2 a s' ey)
    refine ⟨p, hp, (hx.mono (sub p hp)).bind (fun a' s'' e' _ => ?_)⟩
    rw [ey] at e'; cases e'; exact hr
  | panic s' =>
    obtain ⟨p, hp⟩ := h0
    refine ⟨p, hp, (hx.mono (sub p hp)).bind (fun a' s'' e' _ => ?_)⟩
    rw [ey] at e'; cases e'
  | diverge =>
    obtain ⟨p, hp⟩ := h0
    refine ⟨p, hp, (hx.mono (sub p hp)).bind (fun a' s'' e' _ => ?_)⟩
    rw [ey] at e'; cases e'

/-! ## Primitives -/

theorem along_get (i : Nat) (hi : P i) : Along h P s (HS.on (h.get i)) (fun _ s' => s' = s) := by
  by_cases c : 0 ≤ (i : Int) ∧ (i : Int) < h.len
  · refine ⟨⟨[h.off + i], fun k hk => ⟨i, hi, List.mem_singleton.1 hk⟩, fun m ht hm => ?_⟩, fun a s' e => ?_⟩
    · have hc : m.cell (h.off + i) = s.mem.cell (h.off + i) := hm _ (List.mem_singleton.2 rfl)
      simp only [HS.on, Sl.get, if_pos c, Int.toNat_natCast]
      exact ⟨m, by show Res.ok (m.cell _) _ = _; rw [hc], OnlyAt.more ht hm⟩
    · simp only [HS.on, Sl.get, if_pos c] at e; cases e; rfl
  · refine ⟨⟨[], fun _ h => (nomatch h), fun m ht hm => ?_⟩, fun a s' e => ?_⟩
    · simp only [HS.on, Sl.get, if_neg c]
      exact ⟨m, rfl, onlyAt_nil ht⟩
    · simp only [HS.on, Sl.get, if_neg c] at e; cases e

theorem along_put (i : Nat) (v : T) (hi : P i) : Along h P s (HS.on (h.put i v)) (fun _ s' => s'.heap = s.heap) := by
  by_cases c : 0 ≤ (i : Int) ∧ (i : Int) < h.len
  · refine ⟨⟨[h.off + i], fun k hk => ⟨i, hi, List.mem_singleton.1 hk⟩, fun m ht hm => ?_⟩, fun a s' e => ?_⟩
    · simp only [HS.on, Sl.put, if_pos c, Int.toNat_natCast]
      exact ⟨_, rfl, write_agree ht hm (fun k hk => by have := mem_addrs.1 hk; simp only [List.length_singleton] at this; exact List.mem_singleton.2 (by omega))⟩
    · simp only [HS.on, Sl.put, if_pos c] at e; cases e; rfl
  · refine ⟨⟨[], fun _ h => (nomatch h), fun m ht hm => ?_⟩, fun a s' e => ?_⟩
    · simp only [HS.on, Sl.put, if_neg c]
      exact ⟨m, rfl, onlyAt_nil ht⟩
    · simp only [HS.on, Sl.put, if_neg c] at e; cases e

theorem along_call (x : GoM τ α) : Along h P s (HS.call x) (fun _ s' => s'.heap = s.heap) := by
  refine ⟨⟨[], fun _ h => (nomatch h), fun m ht hm => ?_⟩, fun a s' e => ?_⟩
  · simp only [HS.call]
    have : (HasMem.put s m : HS T τ).st = s.st := rfl
    rw [this]
    cases x s.st with
    | ok a t => exact ⟨m, rfl, onlyAt_nil ht⟩
    | panic t => exact ⟨m, rfl, onlyAt_nil ht⟩
    | diverge => exact rfl
  · simp only [HS.call] at e
    revert e
    cases x s.st with
    | ok a t => intro e; cases e; rfl
    | panic t => exact fun e => nomatch e
    | diverge => exact fun e => nomatch e

theorem along_recv : Along h P s (HS.recv : GoM (HS T τ) Sl) (fun h' s' => h' = s.heap ∧ s' = s) := by
  refine ⟨⟨[], fun _ h => (nomatch h), fun m ht hm => ⟨m, rfl, onlyAt_nil ht⟩⟩, fun a s' e => ?_⟩
  cases e; exact ⟨rfl, rfl⟩

theorem along_assign (h' : Sl) : Along h P s (HS.assign h' : GoM (HS T τ) Unit) (fun _ s' => s'.heap = h') := by
  refine ⟨⟨[], fun _ h => (nomatch h), fun m ht hm => ⟨m, rfl, onlyAt_nil ht⟩⟩, fun a s' e => ?_⟩
  cases e; rfl

theorem along_slice (h' : Sl) (lo hi : Int) : Along h P s (HS.on (h'.slice lo hi)) (fun _ _ => True) := by
  refine ⟨⟨[], fun _ h => (nomatch h), fun m ht hm => ?_⟩, fun _ _ _ => trivial⟩
  by_cases c : 0 ≤ lo ∧ lo ≤ hi ∧ hi ≤ h'.cap
  · simp only [HS.on, Sl.slice, if_pos c]
    exact ⟨m, rfl, onlyAt_nil ht⟩
  · simp only [HS.on, Sl.slice, if_neg c]
    exact ⟨m, rfl, onlyAt_nil ht⟩

theorem along_append [GoZero T] (grow : Nat → Nat → Nat) (v : T) (hr : h.len < h.cap) (hp : P h.len) :
    Along h P s (HS.on (h.append grow [v])) (fun h' _ => h' = { h with len := h.len + 1 }) := by
  have c : h.len + [v].length ≤ h.cap := by simp only [List.length_singleton]; omega
  refine ⟨⟨[h.off + h.len], fun k hk => ⟨h.len, hp, List.mem_singleton.1 hk⟩, fun m ht hm => ?_⟩, fun a s' e => ?_⟩
  · simp only [HS.on, Sl.append, if_pos c]
    exact ⟨_, rfl, write_agree ht hm (fun k hk => by have := mem_addrs.1 hk; simp only [List.length_singleton] at this; exact List.mem_singleton.2 (by omega))⟩
  · simp only [HS.on, Sl.append, if_pos c] at e; cases e; rfl

theorem along_swap (i j : Nat) (hi : P i) (hj : P j) : Along h P s (heapSwapM h i j) (fun _ s' => s'.heap = s.heap) := by
  unfold heapSwapM
  refine (along_get j hj).bind (fun x s1 _ e1 => ?_)
  subst e1
  refine (along_get i hi).bind (fun y s1 _ e1 => ?_)
  subst e1
  refine (along_put i x hi).bind (fun _ s2 _ e2 => ?_)
  have := along_put (h := h) (P := P) (s := s2) j y hj
  exact ⟨this.1, fun a s' e => (this.2 a s' e).trans e2⟩

/-! ## The sift functions -/

variable (less : LessM T τ)

theorem along_up (f : Nat) (j : Nat) (s : HS T τ) : Along h (fun i => Above i j) s (heapUpFuncLoopM less f h j) (fun _ s' => s'.heap = s.heap) := by
  induction f generalizing j s with
  | zero => exact Along.diverge
  | succ f ih =>
    simp only [heapUpFuncLoopM]
    by_cases c : (j - 1) / 2 = j
    · rw [if_pos c]; exact Along.pure rfl
    · rw [if_neg c]
      have hup : Above ((j - 1) / 2) j := above_parent (by omega) rfl
      refine (along_get (P := fun i => Above i j) j (above_refl j)).bind (fun x s1 _ e1 => ?_)
      subst e1
      refine (along_get (P := fun i => Above i j) _ hup).bind (fun y s1 _ e1 => ?_)
      subst e1
      refine (along_call _).bind (fun b s2 _ e2 => ?_)
      cases b with
      | false => exact Along.pure e2
      | true =>
        refine (along_swap (P := fun i => Above i j) _ _ hup (above_refl j)).bind (fun _ s3 _ e3 => ?_)
        have := (ih ((j - 1) / 2) s3).mono (P := fun i => Above i j) (fun i hi => above_trans hi hup)
        exact ⟨this.1, fun a s' e => ((this.2 a s' e).trans e3).trans e2⟩

/-- The positions that one step down from `i` sees. -/
def NearNode (i n k : Nat) : Prop := k < n ∧ (k = i ∨ (0 < k ∧ (k - 1) / 2 = i))

theorem nearNode_atPath {i n p k : Nat} (hp : Above i p) (hk : NearNode i n k) : k < n ∧ AtPath p k := by
  obtain ⟨h1, h2⟩ := hk
  refine ⟨h1, ?_⟩
  rcases h2 with rfl | ⟨h2, h3⟩
  · exact Or.inl hp
  · exact atPath_child h2 h3 hp

theorem along_child (i n : Nat) (hn : 2 * i + 1 < n) : Along h (NearNode i n) s (heapSmallerChildFuncM less h (2 * i + 1) n)
    (fun j s' => s'.heap = s.heap ∧ j < n ∧ (j - 1) / 2 = i ∧ 0 < j) := by
  unfold heapSmallerChildFuncM
  by_cases c : 2 * i + 1 + 1 < n
  · rw [if_pos c]
    refine (along_get _ ⟨c, Or.inr ⟨by omega, by omega⟩⟩).bind (fun x s1 _ e1 => ?_)
    subst e1
    refine (along_get _ ⟨hn, Or.inr ⟨by omega, by omega⟩⟩).bind (fun y s1 _ e1 => ?_)
    subst e1
    refine (along_call _).bind (fun b s2 _ e2 => Along.pure ?_)
    cases b with
    | false => exact ⟨e2, hn, by simp only [Bool.false_eq_true, if_false]; omega, by simp⟩
    | true => exact ⟨e2, c, by simp only [if_true]; omega, by simp⟩
  · rw [if_neg c]; exact Along.pure ⟨rfl, hn, by omega, by omega⟩

theorem along_down (f : Nat) (i n : Nat) (hi : i < n) (s : HS T τ) :
    ∃ p, (Above i p ∧ p < n) ∧ Along h (fun k => k < n ∧ AtPath p k) s (heapDownFuncLoopM less f h i n) (fun _ s' => s'.heap = s.heap) := by
  induction f generalizing i s with
  | zero => exact ⟨i, ⟨above_refl i, hi⟩, Along.diverge⟩
  | succ f ih =>
    simp only [heapDownFuncLoopM]
    by_cases c : 2 * i + 1 ≥ n
    · rw [if_pos c]; exact ⟨i, ⟨above_refl i, hi⟩, Along.pure rfl⟩
    · rw [if_neg c]
      have here : ∃ p, Above i p ∧ p < n := ⟨i, above_refl i, hi⟩
      have sub : ∀ p, Above i p ∧ p < n → ∀ k, NearNode i n k → k < n ∧ AtPath p k := fun p hp k hk => nearNode_atPath hp.1 hk
      refine (along_child less i n (by omega)).pick (C := fun p => Above i p ∧ p < n) (R := fun p k => k < n ∧ AtPath p k) sub here
        (fun j s1 _ ⟨e1, hj, hj2, hj3⟩ => ?_)
      have nj : NearNode i n j := ⟨hj, Or.inr ⟨hj3, hj2⟩⟩
      have ni : NearNode i n i := ⟨hi, Or.inl rfl⟩
      refine (along_get j nj).pick (C := fun p => Above i p ∧ p < n) (R := fun p k => k < n ∧ AtPath p k) sub here (fun x s2 _ e2 => ?_)
      subst e2
      refine (along_get i ni).pick (C := fun p => Above i p ∧ p < n) (R := fun p k => k < n ∧ AtPath p k) sub here (fun y s2 _ e2 => ?_)
      subst e2
      refine (along_call (P := NearNode i n) _).pick (C := fun p => Above i p ∧ p < n) (R := fun p k => k < n ∧ AtPath p k) sub here (fun b s2 _ e2 => ?_)
      cases b with
      | false => exact ⟨i, ⟨above_refl i, hi⟩, Along.pure (e2.trans e1)⟩
      | true =>
        refine (along_swap i j ni nj).pick (C := fun p => Above i p ∧ p < n) (R := fun p k => k < n ∧ AtPath p k) sub here (fun _ s3 _ e3 => ?_)
        obtain ⟨p, ⟨hp, hpn⟩, hr⟩ := ih j hj s3
        exact ⟨p, ⟨above_trans (above_parent hj3 hj2.symm) hp, hpn⟩, hr.1, fun a s' e => (((hr.2 a s' e).trans e3).trans e2).trans e1⟩

theorem along_downFunc (i n : Nat) (hi : i < n) (s : HS T τ) :
    ∃ p, (Above i p ∧ p < n) ∧ Along h (fun k => k < n ∧ AtPath p k) s (heapDownFuncM h i n less) (fun _ s' => s'.heap = s.heap) := by
  obtain ⟨p, hp, hr⟩ := along_down (h := h) less (n + 1) i n hi s
  exact ⟨p, hp, hr.bind (fun a s1 _ e1 => Along.pure e1)⟩

/-! ## The functions -/

theorem along_push [GoZero T] (grow : Nat → Nat → Nat) (v : T) (s : HS T τ) (hr : s.heap.len < s.heap.cap) :
    Along s.heap (fun i => Above i s.heap.len) s (pushHeapFuncM grow v less) (fun _ _ => True) := by
  unfold pushHeapFuncM
  refine along_recv.bind (fun h s1 _ ⟨e, e1⟩ => ?_)
  subst e e1
  refine (along_append (P := fun i => Above i s1.heap.len) grow v hr (above_refl _)).bind (fun h' s2 _ e2 => ?_)
  refine (along_assign h').bind (fun _ s3 _ e3 => ?_)
  refine along_recv.bind (fun h2 s4 _ ⟨e4, e5⟩ => ?_)
  subst e4 e5
  rw [e3, e2]
  have := along_up (h := { s1.heap with len := s1.heap.len + 1 }) less (s1.heap.len + 1) s1.heap.len s4
  refine ⟨this.1, fun _ _ _ => trivial⟩

/-- What `PopHeapFunc` and `RemoveHeapFunc` do in the end. -/
theorem along_cut {h : Sl} {P : Nat → Prop} (s : HS T τ) (n : Nat) (hn : h.len = n + 1) (hp : P n) :
    Along h P s (do let h' ← HS.on (h.slice 0 ((h.len : Int) - 1)); HS.assign h'; HS.on (h.get ((h.len : Int) - 1)) : GoM (HS T τ) T) (fun _ _ => True) := by
  have e : (h.len : Int) - 1 = (n : Nat) := by omega
  rw [e]
  refine (along_slice h _ _).bind (fun h' s1 _ _ => ?_)
  refine (along_assign h').bind (fun _ s2 _ _ => ?_)
  exact ⟨(along_get n hp).1, fun _ _ _ => trivial⟩

theorem along_pop (s : HS T τ) (n : Nat) (hn : s.heap.len = n + 1) :
    ∃ p, p ≤ n ∧ Along s.heap (fun k => k = n ∨ (k < n ∧ AtPath p k)) s (popHeapFuncM less) (fun _ _ => True) := by
  have e0 : ((s.heap.len : Int) - 1) = (n : Nat) := by omega
  have main : ∃ p, p ≤ n ∧ Along s.heap (fun k => k = n ∨ (k < n ∧ AtPath p k)) s (do
      heapSwapM s.heap 0 ((s.heap.len : Int) - 1)
      let _ ← heapDownFuncM s.heap 0 ((s.heap.len : Int) - 1).toNat less
      let h' ← HS.on (s.heap.slice 0 ((s.heap.len : Int) - 1))
      HS.assign h'
      HS.on (s.heap.get ((s.heap.len : Int) - 1))) (fun _ _ => True) := by
    have t : ((s.heap.len : Int) - 1).toNat = n := by omega
    rw [t]
    by_cases h0 : n = 0
    · subst h0
      refine ⟨0, Nat.le_refl _, ?_⟩
      have sw : Along s.heap (fun k => k = 0 ∨ (k < 0 ∧ AtPath 0 k)) s (heapSwapM s.heap 0 ((s.heap.len : Int) - 1)) (fun _ s' => s'.heap = s.heap) := by
        rw [e0]; exact along_swap 0 0 (Or.inl rfl) (Or.inl rfl)
      refine sw.bind (fun _ s1 _ _ => ?_)
      have dn : Along s.heap (fun k => k = 0 ∨ (k < 0 ∧ AtPath 0 k)) s1 (heapDownFuncM s.heap 0 0 less) (fun _ s' => True) := Along.pure (h := s.heap) trivial
      refine dn.bind (fun _ s2 _ _ => along_cut s2 0 hn (Or.inl rfl))
    · have pn : ∃ p, p < n := ⟨0, by omega⟩
      have sw : Along s.heap (fun k => k = 0 ∨ k = n) s (heapSwapM s.heap 0 ((s.heap.len : Int) - 1)) (fun _ s' => s'.heap = s.heap) := by
        rw [e0]; exact along_swap 0 n (Or.inl rfl) (Or.inr rfl)
      obtain ⟨p, hp, hr⟩ := sw.pick (C := fun p => Above 0 p ∧ p < n) (R := fun p k => k = n ∨ (k < n ∧ AtPath p k)) (Q2 := fun _ _ => True)
        (g := fun _ => do
          let _ ← heapDownFuncM s.heap 0 n less
          let h' ← HS.on (s.heap.slice 0 ((s.heap.len : Int) - 1))
          HS.assign h'
          HS.on (s.heap.get ((s.heap.len : Int) - 1)))
        (fun p hp k hk => by
          rcases hk with rfl | rfl
          · exact Or.inr ⟨by omega, Or.inl hp.1⟩
          · exact Or.inl rfl)
        ⟨0, above_refl 0, by omega⟩
        (fun _ s1 _ _ => by
          obtain ⟨p, hp, hr⟩ := along_downFunc (h := s.heap) less 0 n (by omega) s1
          exact ⟨p, hp, (hr.mono (fun k hk => Or.inr hk)).bind (fun _ s2 _ _ => along_cut s2 n hn (Or.inl rfl))⟩)
      exact ⟨p, by omega, hr⟩
  obtain ⟨p, hp, hr⟩ := main
  refine ⟨p, hp, ?_⟩
  exact along_recv.bind (fun h s1 _ ⟨e, e1⟩ => by subst e e1; exact hr)

theorem along_removeSift {h : Sl} (i n : Nat) (hn : h.len = n + 1) (hi : i ≤ n) (s : HS T τ) :
    ∃ p, (Above i p ∧ p ≤ n) ∧ Along h (fun k => k = n ∨ (k < n ∧ AtPath p k)) s (removeHeapFuncSiftM h i n less) (fun _ _ => True) := by
  unfold removeHeapFuncSiftM
  by_cases c : (n : Int) ≠ i
  · rw [if_pos c]
    have hlt : i < n := by omega
    obtain ⟨p, hp, hr⟩ := (along_swap (h := h) (P := fun k => k = i ∨ k = n) (s := s) i n (Or.inl rfl) (Or.inr rfl)).pick
      (C := fun p => Above i p ∧ p < n) (R := fun p k => k = n ∨ (k < n ∧ AtPath p k)) (Q2 := fun _ _ => True)
      (g := fun _ => do
        let moved ← heapDownFuncM h i n less
        if !moved then heapUpFuncM h i less else pure ())
      (fun p hp k hk => by
        rcases hk with rfl | rfl
        · exact Or.inr ⟨hlt, Or.inl hp.1⟩
        · exact Or.inl rfl)
      ⟨i, above_refl i, hlt⟩
      (fun _ s1 _ _ => by
        obtain ⟨p, hp, hr⟩ := along_downFunc (h := h) less i n hlt s1
        refine ⟨p, hp, (hr.mono (fun k hk => Or.inr hk)).bind (fun b s2 _ _ => ?_)⟩
        cases b with
        | true => exact Along.pure trivial
        | false =>
          have := (along_up (h := h) less (i + 1) i s2).mono (P := fun k => k = n ∨ (k < n ∧ AtPath p k))
            (fun k hk => Or.inr ⟨by have := above_le hk; omega, Or.inl (above_trans hk hp.1)⟩)
          exact ⟨this.1, fun _ _ _ => trivial⟩)
    exact ⟨p, ⟨hp.1, by omega⟩, hr⟩
  · rw [if_neg c]; exact ⟨i, ⟨above_refl i, hi⟩, Along.pure trivial⟩

theorem along_remove (s : HS T τ) (i n : Nat) (hn : s.heap.len = n + 1) (hi : i ≤ n) :
    ∃ p, (Above i p ∧ p ≤ n) ∧ Along s.heap (fun k => k = n ∨ (k < n ∧ AtPath p k)) s (removeHeapFuncM i less) (fun _ _ => True) := by
  have e0 : ((s.heap.len : Int) - 1) = (n : Nat) := by omega
  obtain ⟨p, hp, hr⟩ := along_removeSift less (h := s.heap) i n hn hi s
  refine ⟨p, hp, ?_⟩
  refine along_recv.bind (fun h s1 _ ⟨e, e1⟩ => ?_)
  subst e e1
  rw [← e0] at hr
  exact hr.bind (fun _ s2 _ _ => along_cut s2 n hn (Or.inl rfl))

/-! ## How many positions a path has -/

theorem above_iff {i j : Nat} : Above i j ↔ i = j ∨ (0 < j ∧ Above i ((j - 1) / 2)) := by
  constructor
  · rintro ⟨k, hk⟩
    cases k with
    | zero => exact Or.inl (by simp at hk; omega)
    | succ k =>
      right
      by_cases hj : j = 0
      · subst hj
        rw [Nat.div_eq_of_lt] at hk
        · omega
        · have := Nat.two_pow_pos k; rw [Nat.pow_succ]; omega
      · refine ⟨by omega, k, ?_⟩
        rw [Nat.pow_succ, Nat.mul_comm, ← Nat.div_div_eq_div_mul] at hk
        rw [show (j - 1) / 2 + 1 = (j + 1) / 2 by omega]; exact hk
  · rintro (rfl | ⟨hj, h⟩)
    · exact above_refl i
    · exact above_trans h (above_parent hj rfl)

theorem above_shift {q p : Nat} (h : Above q p) : ∃ e, e ≤ Nat.log2 (p + 1) ∧ (p + 1) / 2 ^ e = q + 1 := by
  obtain ⟨e, he⟩ := h
  refine ⟨e, ?_, he⟩
  have : 2 ^ e ≤ p + 1 := by
    refine Nat.le_of_not_lt (fun hlt => ?_)
    rw [Nat.div_eq_of_lt hlt] at he; omega
  exact (Nat.le_log2 (by omega)).2 this

theorem above_few (p : Nat) (xs : List Nat) (hn : xs.Nodup) (h : ∀ k ∈ xs, Above k p) : xs.length ≤ Nat.log2 (p + 1) + 1 := by
  have := hn.length_le_of_subset (l₂ := (List.range (Nat.log2 (p + 1) + 1)).map (fun e => (p + 1) / 2 ^ e - 1)) (fun k hk => by
    obtain ⟨e, he, hq⟩ := above_shift (h k hk)
    exact List.mem_map.2 ⟨e, List.mem_range.2 (by omega), by omega⟩)
  simpa using this

/-- The root, and the children of the positions that lie from `a` to `a + c` steps above `p`. -/
def pathCover (p a : Nat) : Nat → List Nat
  | 0 => [0]
  | c + 1 => (2 * ((p + 1) / 2 ^ (a + c) - 1) + 1) :: (2 * ((p + 1) / 2 ^ (a + c) - 1) + 2) :: pathCover p a c

theorem pathCover_length (p a c : Nat) : (pathCover p a c).length = 2 * c + 1 := by
  induction c with
  | zero => rfl
  | succ c ih => simp only [pathCover, List.length_cons, ih]; omega

theorem pathCover_zero (p a c : Nat) : 0 ∈ pathCover p a c := by
  induction c with
  | zero => simp [pathCover]
  | succ c ih => exact List.mem_cons_of_mem _ (List.mem_cons_of_mem _ ih)

theorem pathCover_mem {p a e q k : Nat} (hq : (p + 1) / 2 ^ (a + e) = q + 1) (hk : k = 2 * q + 1 ∨ k = 2 * q + 2) : ∀ c, e < c → k ∈ pathCover p a c := by
  intro c
  induction c with
  | zero => intro h; omega
  | succ c ih =>
    intro h
    simp only [pathCover]
    by_cases hc : e = c
    · subst hc
      rw [hq, Nat.add_sub_cancel]
      rcases hk with rfl | rfl <;> simp
    · exact List.mem_cons_of_mem _ (List.mem_cons_of_mem _ (ih (by omega)))

theorem atPath_few (p n : Nat) (hp : p < n) (xs : List Nat) (hn : xs.Nodup) (h : ∀ k ∈ xs, k < n ∧ AtPath p k) : xs.length ≤ 2 * Nat.log2 n + 1 := by
  have child : ∀ k ∈ xs, k = 0 ∨ ∃ q, (k = 2 * q + 1 ∨ k = 2 * q + 2) ∧ Above q p := by
    intro k hk
    by_cases h0 : k = 0
    · exact Or.inl h0
    · refine Or.inr ⟨(k - 1) / 2, by omega, ?_⟩
      rcases (h k hk).2 with h | ⟨_, h⟩
      · exact above_trans (above_parent (by omega) rfl) h
      · exact h
  have hl : Nat.log2 (p + 1) ≤ Nat.log2 n := by
    rw [Nat.le_log2 (by omega)]
    exact Nat.le_trans (Nat.log2_self_le (by omega)) (by omega)
  by_cases c : Nat.log2 (p + 1) + 1 ≤ Nat.log2 n
  · have := hn.length_le_of_subset (l₂ := pathCover p 0 (Nat.log2 n)) (fun k hk => by
      rcases child k hk with rfl | ⟨q, hq, ha⟩
      · exact pathCover_zero _ _ _
      · obtain ⟨e, he, hq'⟩ := above_shift ha
        exact pathCover_mem (by rw [Nat.zero_add]; exact hq') hq _ (by omega))
    rwa [pathCover_length] at this
  · have hbig : n < 2 * (p + 1) := by
      have h1 : n < 2 ^ (Nat.log2 n + 1) := Nat.lt_log2_self
      have h2 : 2 ^ Nat.log2 (p + 1) ≤ p + 1 := Nat.log2_self_le (by omega)
      rw [show Nat.log2 n = Nat.log2 (p + 1) by omega, Nat.pow_succ] at h1
      omega
    have := hn.length_le_of_subset (l₂ := pathCover p 1 (Nat.log2 n)) (fun k hk => by
      rcases child k hk with rfl | ⟨q, hq, ha⟩
      · exact pathCover_zero _ _ _
      · obtain ⟨e, he, hq'⟩ := above_shift ha
        cases e with
        | zero =>
          have := (h k hk).1
          simp at hq'; omega
        | succ e => exact pathCover_mem (e := e) (by rw [Nat.add_comm 1 e]; exact hq') hq _ (by omega))
    rwa [pathCover_length] at this

end Stl4go
