import Verif.Proofs.HeapMem
import Verif.Proofs.Stack
/-! # The heap functions on memory, from the caller's side -/
namespace Stl4go
variable {T τ α β γ : Type} {less : LessM T τ} {l : T → T → Bool}

theorem GoM.bind_assoc' {σ : Type} (x : GoM σ α) (f : α → GoM σ β) (g : β → GoM σ γ) : ((x >>= f) >>= g) = (x >>= fun a => f a >>= g) := by
  funext s
  simp only [GoM.bind_def]
  cases x s <;> rfl

theorem HS.at_self (m : Mem T) (h hp : Sl) (t : τ) : HS.at m h hp (h.read m) t = ⟨m, t, hp⟩ := by
  simp only [HS.at, Sl.write_read]

theorem Rearranged.of_write {m : Mem T} {h : Sl} {ys : List T} (hl : ys.length = h.len) (hp : ys.Perm (h.read m)) :
    Rearranged m (m.write h.off ys) h :=
  ⟨⟨rfl, fun k hk => Mem.write_out _ _ _ _ (by omega)⟩, by rw [Sl.read_write_self _ _ _ hl]; exact hp⟩

/-! ## `MakeHeapFunc` -/

theorem makeHeapFuncM_any (less : LessM T τ) (a : Sl) (s : HS T τ) :
    match makeHeapFuncM a less s with
    | .ok _ s' => Rearranged s.mem s'.mem a ∧ s'.heap = s.heap
    | .panic s' => Rearranged s.mem s'.mem a ∧ s'.heap = s.heap ∧ PanicsWith less s'.st
    | .diverge => Hangs less := by
  obtain ⟨m, t, hp⟩ := s
  have := makeHeapFuncM_leaves (less := less) (m := m) (h := a) (hp := hp) (a.read m) t (by simp)
  rw [HS.at_self] at this
  cases hr : makeHeapFuncM a less ⟨m, t, hp⟩ with
  | ok u s' =>
    rw [hr] at this
    obtain ⟨ys, t', rfl, hl, hq⟩ := this
    exact ⟨.of_write hl hq, rfl⟩
  | panic s' =>
    rw [hr] at this
    obtain ⟨ys, t', rfl, hl, hq, hpp⟩ := this
    exact ⟨.of_write hl hq, rfl, hpp⟩
  | diverge => rw [hr] at this; exact this

theorem makeHeapFuncM_refines (ha : Answers less l) (a : Sl) (s : HS T τ) {ys : List T} (e : makeHeapFunc (a.read s.mem) l = .ret ys) :
    ys.length = a.len ∧ ∃ t', makeHeapFuncM a less s = .ok () ⟨s.mem.write a.off ys, t', s.heap⟩ := by
  obtain ⟨m, t, hp⟩ := s
  unfold makeHeapFunc at e
  simp only [Sl.read_length] at e
  have := makeHeapFuncLoopM_refines (h := a) (m := m) (hp := hp) ha a.len (a.len / 2) (a.read m) ys t (by simp) (by simp) e
  rw [HS.at_self] at this
  exact this

/-! ## `PopHeapFunc` -/

/-- The last two statements of `PopHeapFunc` and `RemoveHeapFunc`. -/
def cutLast (h : Sl) : GoM (HS T τ) T := do
  let h' ← HS.on (h.slice 0 ((h.len : Int) - 1))
  HS.assign h'
  HS.on (h.get ((h.len : Int) - 1))

theorem cutLast_at {m : Mem T} {h hp : Sl} {ys : List T} (hl : ys.length = h.len) (hc : h.len ≤ h.cap) (n : Nat) (hn : h.len = n + 1) (t : τ) :
    cutLast h (HS.at m h hp ys t) = .ok (ys[n]'(by omega)) (HS.at m h { h with len := n } ys t) := by
  have hi : ((h.len : Int) - 1) = (n : Nat) := by omega
  unfold cutLast
  rw [hi]
  simp only [GoM.bind_def, HS.on, HS.assign, Sl.slice_zero h _ n (by omega), Sl.get_write h m ys hl n (by omega)]

theorem popHeapFuncM_split (m : Mem T) (t : τ) (h : Sl) (n : Nat) (hn : h.len = n + 1) :
    popHeapFuncM less ⟨m, t, h⟩ = ((do heapSwapM h (0 : Int) (n : Int); heapDownFuncM h 0 n less : GoM (HS T τ) Bool) >>= fun _ => cutLast h) ⟨m, t, h⟩ := by
  have hi : ((h.len : Int) - 1) = (n : Nat) := by omega
  have e : popHeapFuncM less ⟨m, t, h⟩ = (do
      heapSwapM h 0 ((h.len : Int) - 1)
      let _ ← heapDownFuncM h 0 ((h.len : Int) - 1).toNat less
      cutLast h : GoM (HS T τ) T) ⟨m, t, h⟩ := rfl
  rw [e, GoM.bind_assoc', hi, Int.toNat_natCast]

theorem popHeapFuncM_empty (m : Mem T) (t : τ) (h : Sl) (hn : h.len = 0) : popHeapFuncM less ⟨m, t, h⟩ = .panic ⟨m, t, h⟩ := by
  have := heapSwapM_panic (h := h) (i := 0) (j := (h.len : Int) - 1) (.inr (by omega)) (⟨m, t, h⟩ : HS T τ)
  simp only [popHeapFuncM, GoM.bind_def, HS.recv, this]

theorem popHeapFuncM_any (less : LessM T τ) (s : HS T τ) (hc : s.heap.len ≤ s.heap.cap) :
    match popHeapFuncM less s with
    | .ok r s' => 0 < s.heap.len ∧ Rearranged s.mem s'.mem s.heap ∧ s'.heap = { s.heap with len := s.heap.len - 1 } ∧
        (s.heap.read s.mem)[0]? = some r ∧ (s.heap.read s'.mem)[s.heap.len - 1]? = some r
    | .panic s' => (s.heap.len = 0 ∧ s' = s) ∨ (0 < s.heap.len ∧ Rearranged s.mem s'.mem s.heap ∧ s'.heap = s.heap ∧ PanicsWith less s'.st)
    | .diverge => Hangs less := by
  obtain ⟨m, t, h⟩ := s
  by_cases h0 : h.len = 0
  · rw [popHeapFuncM_empty m t h h0]
    exact .inl ⟨h0, rfl⟩
  obtain ⟨n, hn⟩ : ∃ n, h.len = n + 1 := ⟨h.len - 1, by omega⟩
  have hlv := popSift_leaves (less := less) (m := m) (h := h) (hp := h) (h.read m) n t (by simpa using hn) (by simp)
  rw [HS.at_self] at hlv
  rw [popHeapFuncM_split m t h n hn, GoM.bind_def]
  simp only at hc ⊢
  cases hr : (do heapSwapM h (0 : Int) (n : Int); heapDownFuncM h 0 n less : GoM (HS T τ) Bool) ⟨m, t, h⟩ with
  | ok b s' =>
    rw [hr] at hlv
    obtain ⟨ys, t', rfl, hl, hq, h1⟩ := hlv
    simp only [cutLast_at hl hc n hn]
    refine ⟨by omega, .of_write hl hq, by simp [hn], ?_, ?_⟩
    · rw [← h1, List.getElem?_eq_getElem]
    · rw [Sl.read_write_self _ _ _ hl, hn, Nat.add_sub_cancel, List.getElem?_eq_getElem]
  | panic s' =>
    rw [hr] at hlv
    obtain ⟨ys, t', rfl, hl, ⟨hq, h1⟩, hpp⟩ := hlv
    exact .inr ⟨by omega, .of_write hl hq, rfl, hpp⟩
  | diverge => rw [hr] at hlv; exact hlv

theorem Outcome.bind_ret {x : Outcome α} {f : α → Outcome β} {b : β} (h : (x >>= f) = .ret b) : ∃ a, x = .ret a ∧ f a = .ret b := by
  cases x with
  | ret a => exact ⟨a, rfl, h⟩
  | panic => cases h
  | diverge => cases h

/-- The list functions `Pop` and `Remove` drop the element they return from the end of this list. -/
theorem take_getElem_last {ys : List T} {n : Nat} (h : ys.length = n + 1) : ys = ys.take n ++ [ys[n]'(by omega)] := by
  have := List.take_append_drop n ys
  rw [List.drop_eq_getElem_cons (show n < ys.length by omega), List.drop_eq_nil_of_le (show ys.length ≤ n + 1 by omega)] at this
  exact this.symm

theorem popHeapFuncM_refines (ha : Answers less l) (s : HS T τ) (hc : s.heap.len ≤ s.heap.cap) {r : T} {ys : List T}
    (e : popHeapFunc (s.heap.read s.mem) l = .ret (r, ys)) :
    s.heap.len = ys.length + 1 ∧
      ∃ t', popHeapFuncM less s = .ok r ⟨s.mem.write s.heap.off (ys ++ [r]), t', { s.heap with len := ys.length }⟩ := by
  obtain ⟨m, t, h⟩ := s
  simp only at hc e ⊢
  by_cases h0 : h.len = 0
  · have : h.read m = [] := List.eq_nil_of_length_eq_zero (by simpa using h0)
    rw [this] at e
    cases e
  obtain ⟨n, hn⟩ : ∃ n, h.len = n + 1 := ⟨h.len - 1, by omega⟩
  have hlen : (h.read m).length = n + 1 := by simpa using hn
  have hi : (((h.read m).length : Int) - 1) = (n : Nat) := by omega
  unfold popHeapFunc at e
  rw [hi] at e
  have e0 : heapSwapI (h.read m) 0 (n : Int) = .ret (swapped (h.read m) 0 n (by omega) (by omega)) := by
    rw [← heapSwap_eq, ← heapSwapI_nat]; rfl
  simp only [e0, Outcome.ret_bind, Int.toNat_natCast] at e
  obtain ⟨⟨zs, b⟩, e1, e2⟩ := Outcome.bind_ret e
  obtain ⟨r', e3, e4⟩ := Outcome.bind_ret e2
  simp only at e3 e4
  obtain ⟨hz, rfl⟩ := idx_ret e3
  obtain ⟨hlz, t', e5⟩ := heapDownFuncM_refines (h := h) (m := m) (hp := h) ha _ zs 0 n b t (by simp) (by simp; omega) e1
  cases e4
  have hs : heapSwapM h (0 : Int) (n : Int) ⟨m, t, h⟩ = .ok () (HS.at m h h (swapped (h.read m) 0 n (by omega) (by omega)) t) := by
    rw [← HS.at_self m h h t]
    exact heapSwapM_at (m := m) (hp := h) (xs := h.read m) (by simp) t 0 n (by omega) (by omega)
  have hz2 : zs.take n ++ [zs[n]] = zs := (take_getElem_last (by omega)).symm
  have hzl : (zs.take n).length = n := by simp; omega
  refine ⟨by omega, t', ?_⟩
  rw [popHeapFuncM_split m t h n hn, GoM.bind_assoc', GoM.bind_ok hs, GoM.bind_ok e5, cutLast_at hlz hc n hn, hz2, hzl]

/-! ## `RemoveHeapFunc` -/

theorem removeHeapFuncM_eq (m : Mem T) (t : τ) (h : Sl) (i : Int) :
    removeHeapFuncM i less ⟨m, t, h⟩ = (removeHeapFuncSiftM h i ((h.len : Int) - 1) less >>= fun _ => cutLast h) ⟨m, t, h⟩ := rfl

theorem removeHeapFuncM_out (s : HS T τ) (i : Int) (hi : ¬ (0 ≤ i ∧ i < s.heap.len)) : removeHeapFuncM i less s = .panic s := by
  obtain ⟨m, t, h⟩ := s
  simp only at hi
  rw [removeHeapFuncM_eq, GoM.bind_def]
  unfold removeHeapFuncSiftM
  by_cases hni : (h.len : Int) - 1 = i
  · rw [if_neg (by omega)]
    have : h.slice 0 ((h.len : Int) - 1) m = .panic m := Sl.slice_panic _ _ _ _ (by omega)
    simp only [GoM.pure_apply, cutLast, GoM.bind_def, HS.on, this]
  · rw [if_pos (by omega), GoM.bind_panic (heapSwapM_panic (.inl hi) _)]

theorem removeHeapFuncM_any (less : LessM T τ) (s : HS T τ) (hc : s.heap.len ≤ s.heap.cap) (i : Nat) (hi : i < s.heap.len) :
    match removeHeapFuncM (i : Int) less s with
    | .ok r s' => Rearranged s.mem s'.mem s.heap ∧ s'.heap = { s.heap with len := s.heap.len - 1 } ∧
        (s.heap.read s.mem)[i]? = some r ∧ (s.heap.read s'.mem)[s.heap.len - 1]? = some r
    | .panic s' => Rearranged s.mem s'.mem s.heap ∧ s'.heap = s.heap ∧ PanicsWith less s'.st
    | .diverge => Hangs less := by
  obtain ⟨m, t, h⟩ := s
  simp only at hc hi ⊢
  obtain ⟨n, hn⟩ : ∃ n, h.len = n + 1 := ⟨h.len - 1, by omega⟩
  have hI : ((h.len : Int) - 1) = (n : Nat) := by omega
  have hlv := removeSift_leaves (less := less) (m := m) (h := h) (hp := h) (h.read m) i n t (by simpa using hn) (by simpa using hi) (by simp)
  rw [HS.at_self] at hlv
  rw [removeHeapFuncM_eq, hI, GoM.bind_def]
  cases hr : removeHeapFuncSiftM h (i : Int) (n : Int) less ⟨m, t, h⟩ with
  | ok b s' =>
    rw [hr] at hlv
    obtain ⟨ys, t', rfl, hl, hq, h1⟩ := hlv
    simp only [cutLast_at hl hc n hn]
    refine ⟨.of_write hl hq, by simp [hn], ?_, ?_⟩
    · rw [← h1, List.getElem?_eq_getElem]
    · rw [Sl.read_write_self _ _ _ hl, hn, Nat.add_sub_cancel, List.getElem?_eq_getElem]
  | panic s' =>
    rw [hr] at hlv
    obtain ⟨ys, t', rfl, hl, ⟨hq, h1⟩, hpp⟩ := hlv
    exact ⟨.of_write hl hq, rfl, hpp⟩
  | diverge => rw [hr] at hlv; exact hlv

theorem removeHeapFuncM_refines (ha : Answers less l) (s : HS T τ) (hc : s.heap.len ≤ s.heap.cap) (i : Nat) (hi : i < s.heap.len) {r : T} {ys : List T}
    (e : removeHeapFunc (s.heap.read s.mem) i l = .ret (r, ys)) :
    s.heap.len = ys.length + 1 ∧
      ∃ t', removeHeapFuncM (i : Int) less s = .ok r ⟨s.mem.write s.heap.off (ys ++ [r]), t', { s.heap with len := ys.length }⟩ := by
  obtain ⟨m, t, h⟩ := s
  simp only at hc hi e ⊢
  obtain ⟨n, hn⟩ : ∃ n, h.len = n + 1 := ⟨h.len - 1, by omega⟩
  have hlen : (h.read m).length = n + 1 := by simpa using hn
  have hI : (((h.read m).length : Int) - 1) = (n : Nat) := by omega
  have hI' : ((h.len : Int) - 1) = (n : Nat) := by omega
  unfold removeHeapFunc at e
  rw [hI] at e
  obtain ⟨zs, e1, e2⟩ := Outcome.bind_ret e
  rw [if_neg (by omega)] at e2
  obtain ⟨r', e3, e4⟩ := Outcome.bind_ret e2
  simp only [Int.toNat_natCast] at e3 e4
  obtain ⟨hz, rfl⟩ := idx_ret e3
  cases e4
  have key : zs.length = h.len ∧ ∃ t', removeHeapFuncSiftM h (i : Int) (n : Int) less ⟨m, t, h⟩ = .ok () (HS.at m h h zs t') := by
    unfold removeHeapFuncSift at e1
    unfold removeHeapFuncSiftM
    by_cases hni : n = i
    · subst hni
      rw [if_neg (by simp)] at e1 ⊢
      cases e1
      exact ⟨by simp, t, by rw [HS.at_self]; rfl⟩
    · rw [if_pos (by omega)] at e1 ⊢
      have e0 : heapSwapI (h.read m) (i : Int) (n : Int) = .ret (swapped (h.read m) i n (by omega) (by omega)) := by
        rw [← heapSwap_eq, ← heapSwapI_nat]
      have hs : heapSwapM h (i : Int) (n : Int) ⟨m, t, h⟩ = .ok () (HS.at m h h (swapped (h.read m) i n (by omega) (by omega)) t) := by
        rw [← HS.at_self m h h t]
        exact heapSwapM_at (m := m) (hp := h) (xs := h.read m) (by simp) t i n (by omega) (by omega)
      simp only [e0, Outcome.ret_bind, Int.toNat_natCast] at e1
      obtain ⟨⟨ws, b⟩, e5, e6⟩ := Outcome.bind_ret e1
      obtain ⟨hlw, t1, e7⟩ := heapDownFuncM_refines (h := h) (m := m) (hp := h) ha _ ws i n b t (by simp) (by simp; omega) e5
      rw [GoM.bind_ok hs]
      simp only [Int.toNat_natCast]
      rw [GoM.bind_ok e7]
      cases b with
      | true => cases e6; exact ⟨hlw, t1, rfl⟩
      | false => exact heapUpFuncM_refines (m := m) (hp := h) ha ws zs i t1 hlw (by omega) e6
  obtain ⟨hlz, t', e5⟩ := key
  have hz2 : zs.take n ++ [zs[n]] = zs := (take_getElem_last (by omega)).symm
  have hzl : (zs.take n).length = n := by simp; omega
  refine ⟨by omega, t', ?_⟩
  rw [removeHeapFuncM_eq, hI', GoM.bind_ok e5, cutLast_at hlz hc n hn, hz2, hzl]

/-! ## `PushHeapFunc` -/

section
variable [GoZero T]

theorem pushHeapFuncM_split (grow : Nat → Nat → Nat) (v : T) {m m' : Mem T} {h h' : Sl} (t : τ) (e : h.append grow [v] m = .ok h' m')
    (hl : h'.len = h.len + 1) : pushHeapFuncM grow v less ⟨m, t, h⟩ = heapUpFuncM h' h.len less ⟨m', t, h'⟩ := by
  simp only [pushHeapFuncM, GoM.bind_def, HS.recv, HS.on, HS.assign, e, hl, Nat.add_sub_cancel]

theorem pushHeapFuncM_any (grow : Nat → Nat → Nat) (v : T) (less : LessM T τ) (s : HS T τ) (hw : s.heap.WF s.mem) :
    match pushHeapFuncM grow v less s with
    | .ok _ s' => Pushed s.mem s.heap v s'.mem s'.heap
    | .panic s' => Pushed s.mem s.heap v s'.mem s'.heap ∧ PanicsWith less s'.st
    | .diverge => Hangs less := by
  obtain ⟨m, t, h⟩ := s
  simp only at hw ⊢
  obtain ⟨h', m', e, g, hl, hin⟩ := Sl.append_spec grow h [v] m hw
  simp only [List.length_singleton] at hl hin
  rw [pushHeapFuncM_split grow v t e hl]
  have h1 := hw.1
  have hlv := heapUpFuncM_leaves (less := less) (m := m') (h := h') (hp := h') (h'.read m') h.len t (by simp; omega) (by simp)
  rw [HS.at_self] at hlv
  have key : ∀ ys : List T, ys.length = h'.len → ys.Perm (h'.read m') → Pushed m h v (m'.write h'.off ys) h' := by
    intro ys hly hp
    refine ⟨g.wf, ?_, ?_, ?_⟩
    · rw [Sl.read_write_self _ _ _ hly]
      refine hp.trans ?_
      rw [g.read]
      exact List.perm_append_comm
    · intro hroom
      obtain ⟨rfl, rfl⟩ := hin hroom
      refine ⟨rfl, rfl, fun k hk => ?_⟩
      simp only at hly hk ⊢
      rw [Mem.write_out _ _ _ _ (by omega), Mem.write_out _ _ _ _ (by simp; omega)]
    · intro hfull
      have hnew : m.top ≤ h'.off := by
        unfold Sl.append at e
        simp only [List.length_singleton] at e
        rw [if_neg (by omega)] at e
        cases e
        exact Nat.le_refl _
      refine ⟨hnew, fun k hk => ?_⟩
      rw [Mem.write_out _ _ _ _ (by omega), g.prefix_ hnew k hk]
  cases hr : heapUpFuncM h' h.len less ⟨m', t, h'⟩ with
  | ok b s' =>
    rw [hr] at hlv
    obtain ⟨ys, t', rfl, hly, hq⟩ := hlv
    exact key ys hly hq.perm
  | panic s' =>
    rw [hr] at hlv
    obtain ⟨ys, t', rfl, hly, hq, hpp⟩ := hlv
    exact ⟨key ys hly hq.perm, hpp⟩
  | diverge => rw [hr] at hlv; exact hlv

theorem pushHeapFuncM_refines (ha : Answers less l) (grow : Nat → Nat → Nat) (v : T) (s : HS T τ) (hw : s.heap.WF s.mem) {ys : List T}
    (e : pushHeapFunc (s.heap.read s.mem) v l = .ret ys) :
    ∃ h' m' t', s.heap.append grow [v] s.mem = .ok h' m' ∧ ys.length = h'.len ∧
      pushHeapFuncM grow v less s = .ok () ⟨m'.write h'.off ys, t', h'⟩ := by
  obtain ⟨m, t, h⟩ := s
  simp only at hw e ⊢
  obtain ⟨h', m', e1, g, hl, hin⟩ := Sl.append_spec grow h [v] m hw
  simp only [List.length_singleton] at hl hin
  unfold pushHeapFunc at e
  simp only [List.length_append, Sl.read_length, List.length_singleton, Nat.add_sub_cancel] at e
  rw [← g.read] at e
  obtain ⟨a, t', e2⟩ := heapUpFuncM_refines (h := h') (m := m') (hp := h') ha (h'.read m') ys h.len t (by simp) (by simp; omega) e
  rw [HS.at_self] at e2
  exact ⟨h', m', t', e1, a, by rw [pushHeapFuncM_split grow v t e1 hl]; exact e2⟩

end

end Stl4go
