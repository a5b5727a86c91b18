import Verif.Spec.HeapAny
import Verif.Spec.HeapMem
import Verif.Proofs.HeapMem
import Verif.Proofs.HeapCost
import Verif.Proofs.Slice
/-! # Lemmas: comparison functions that reach the heap -/
namespace Stl4go
variable {T τ α β : Type}

theorem HS.on_get {a : Sl} {i : Nat} (hi : i < a.len) (s : HS T τ) : HS.on (a.get (i : Int)) s = .ok (s.mem.cell (a.off + i)) s := by
  simp only [HS.on, Sl.get]
  rw [if_pos (by omega)]
  simp

theorem Mem.cell_write_one (m : Mem T) (o : Nat) (v : T) (k : Nat) : (m.write o [v]).cell k = if k = o then v else m.cell k := by
  by_cases h : k = o
  · subst h; simp [Mem.write]
  · rw [if_neg h, Mem.write_out _ _ _ _ (by simp; omega)]

theorem log2_add_le (a b n : Nat) (ha : a ≠ 0) (hb : b ≠ 0) (h : a * b ≤ n) : Nat.log2 a + Nat.log2 b ≤ Nat.log2 n := by
  have : a * b ≠ 0 := Nat.mul_ne_zero ha hb
  rw [Nat.le_log2 (by omega), Nat.pow_add]
  exact Nat.le_trans (Nat.mul_le_mul (Nat.log2_self_le ha) (Nat.log2_self_le hb)) h

theorem heapSwapM_exchange {a : Sl} {i j : Nat} (hi : i < a.len) (hj : j < a.len) (s : HS T τ) :
    heapSwapM a (i : Int) (j : Int) s = .ok () (s.exchange a i j) := by
  unfold heapSwapM
  simp only [GoM.bind_def, HS.on_get hj, HS.on_get hi]
  simp only [HS.on, Sl.put]
  rw [if_pos (by omega)]
  simp only []
  rw [if_pos (by omega)]
  simp only [HS.exchange, Int.toNat_natCast]
  congr 2
  refine Mem.ext' (fun k => ?_) rfl
  simp only [Mem.cell_write_one]

section
variable {less : LessA T τ} {a : Sl}

theorem Acts.trans {n k : Nat} {s s1 s2 : HS T τ} (x : Acts less a n s s1) (y : Acts less a k s1 s2) : Acts less a (n + k) s s2 := by
  induction x with
  | stop => simpa using y
  | call i j hi hj h _ ih => rw [Nat.add_right_comm]; exact .call i j hi hj h (ih y)
  | swap i j hi hj _ ih => exact .swap i j hi hj (ih y)

theorem HeapRuns.mono {b b' : Nat} {s : HS T τ} {Q Q' : α → HS T τ → Prop} {r : Res (HS T τ) α} (h : HeapRuns less a b s Q r) (hb : b ≤ b')
    (hq : ∀ v s, Q v s → Q' v s) : HeapRuns less a b' s Q' r := by
  cases r with
  | ok v s' => obtain ⟨q, n, hn, x⟩ := h; exact ⟨hq _ _ q, n, by omega, x⟩
  | panic s' => obtain ⟨n, s1, i, j, hn, x⟩ := h; exact ⟨n, s1, i, j, by omega, x⟩
  | diverge => obtain ⟨n, s1, i, j, hn, x⟩ := h; exact ⟨n, s1, i, j, by omega, x⟩

/-- After some steps, a run. -/
theorem HeapRuns.after {b k : Nat} {s s1 : HS T τ} {Q : α → HS T τ → Prop} {r : Res (HS T τ) α} (x : Acts less a k s s1)
    (h : HeapRuns less a b s1 Q r) : HeapRuns less a (k + b) s Q r := by
  cases r with
  | ok v s' => obtain ⟨q, n, hn, y⟩ := h; exact ⟨q, k + n, by omega, x.trans y⟩
  | panic s' => obtain ⟨n, s1, i, j, hn, hi, hj, y, z⟩ := h; exact ⟨k + n, s1, i, j, by omega, hi, hj, x.trans y, z⟩
  | diverge => obtain ⟨n, s1, i, j, hn, hi, hj, y, z⟩ := h; exact ⟨k + n, s1, i, j, by omega, hi, hj, x.trans y, z⟩

theorem HeapRuns.pure {b : Nat} {s : HS T τ} {Q : α → HS T τ → Prop} {v : α} (h : Q v s) :
    HeapRuns less a b s Q ((Pure.pure v : GoM (HS T τ) α) s) := ⟨h, 0, by omega, .stop s⟩

theorem HeapRuns.bind {b c : Nat} {s : HS T τ} {Q : α → HS T τ → Prop} {Q' : β → HS T τ → Prop} {x : GoM (HS T τ) α} {f : α → GoM (HS T τ) β}
    (hx : HeapRuns less a b s Q (x s)) (hf : ∀ v s1, Q v s1 → HeapRuns less a c s1 Q' (f v s1)) : HeapRuns less a (b + c) s Q' ((x >>= f) s) := by
  rw [GoM.bind_def]
  cases e : x s with
  | ok v s1 =>
    rw [e] at hx
    obtain ⟨q, n, hn, y⟩ := hx
    exact (HeapRuns.after y (hf v s1 q)).mono (by omega) (fun _ _ h => h)
  | panic s1 => rw [e] at hx; obtain ⟨n, s1, i, j, hn, x⟩ := hx; exact ⟨n, s1, i, j, by omega, x⟩
  | diverge => rw [e] at hx; obtain ⟨n, s1, i, j, hn, x⟩ := hx; exact ⟨n, s1, i, j, by omega, x⟩

theorem HeapRuns.get {b : Nat} {s : HS T τ} {Q : α → HS T τ → Prop} {f : T → GoM (HS T τ) α} {i : Nat} (hi : i < a.len)
    (h : HeapRuns less a b s Q (f (s.mem.cell (a.off + i)) s)) : HeapRuns less a b s Q ((HS.on (a.get (i : Int)) >>= f) s) := by
  rw [GoM.bind_def, HS.on_get hi]; exact h

theorem HeapRuns.swap {b : Nat} {s : HS T τ} {Q : α → HS T τ → Prop} {f : Unit → GoM (HS T τ) α} {i j : Nat} (hi : i < a.len) (hj : j < a.len)
    (h : ∀ s, HeapRuns less a b s Q (f () s)) : HeapRuns less a b s Q ((heapSwapM a (i : Int) (j : Int) >>= f) s) := by
  rw [GoM.bind_def, heapSwapM_exchange hi hj]
  have := HeapRuns.after (k := 0) (Acts.swap i j hi hj (.stop (s.exchange a i j))) (h (s.exchange a i j))
  simpa using this

/-- A call of `less` with two elements read just before. -/
theorem HeapRuns.ask {b : Nat} {s : HS T τ} {Q : α → HS T τ → Prop} {f : Bool → GoM (HS T τ) α} {i j : Nat} (hi : i < a.len) (hj : j < a.len)
    (h : ∀ v s, HeapRuns less a b s Q (f v s)) :
    HeapRuns less a (b + 1) s Q ((do let x ← HS.on (a.get (i : Int)); let y ← HS.on (a.get (j : Int)); let v ← less x y; f v : GoM (HS T τ) α) s) := by
  refine HeapRuns.get hi (HeapRuns.get hj ?_)
  rw [GoM.bind_def]
  cases e : less (s.mem.cell (a.off + i)) (s.mem.cell (a.off + j)) s with
  | ok v s1 =>
    have := HeapRuns.after (Acts.call i j hi hj e (.stop s1)) (h v s1)
    rw [Nat.add_comm]; exact this
  | panic s1 => exact ⟨0, s, i, j, by omega, hi, hj, .stop s, e⟩
  | diverge => exact ⟨0, s, i, j, by omega, hi, hj, .stop s, e⟩

theorem heapUpFuncLoopA_runs (f : Nat) : ∀ (j : Nat) (s : HS T τ), j < f → j < a.len →
    HeapRuns less a (Nat.log2 (j + 1)) s (fun _ _ => True) (heapUpFuncLoopA less f a j s) := by
  induction f with
  | zero => intro j s h; omega
  | succ f ih =>
    intro j s hf hj
    unfold heapUpFuncLoopA
    simp only []
    split
    · exact .pure trivial
    · rename_i hne
      have hl := log2_half (j + 1) (by omega)
      have hm := log2_mono (show (j - 1) / 2 + 1 ≤ (j + 1) / 2 by omega)
      refine (HeapRuns.ask (b := Nat.log2 ((j - 1) / 2 + 1)) hj (by omega) ?_).mono (by omega) (fun _ _ h => h)
      intro v s
      cases v with
      | false => exact .pure trivial
      | true => exact HeapRuns.swap (by omega) hj (fun s => ih _ s (by omega) (by omega))

theorem heapUpFuncA_runs (j : Nat) (s : HS T τ) (hj : j < a.len) :
    HeapRuns less a (Nat.log2 (j + 1)) s (fun _ _ => True) (heapUpFuncA a j less s) := heapUpFuncLoopA_runs _ _ _ (by omega) hj

theorem heapSmallerChildFuncA_runs (j n : Nat) (s : HS T τ) (hj : j < n) (hn : n ≤ a.len) :
    HeapRuns less a 1 s (fun k _ => j ≤ k ∧ k < n) (heapSmallerChildFuncA less a j n s) := by
  unfold heapSmallerChildFuncA
  split
  · refine HeapRuns.ask (b := 0) (by omega) (by omega) ?_
    intro v s
    refine .pure ?_
    split <;> omega
  · exact .pure ⟨Nat.le_refl _, hj⟩

theorem heapDownFuncLoopA_runs (n : Nat) (hn : n ≤ a.len) (f : Nat) : ∀ (i : Nat) (s : HS T τ), n - i < f →
    HeapRuns less a (2 * Nat.log2 (n / (i + 1))) s (fun k _ => i ≤ k) (heapDownFuncLoopA less f a i n s) := by
  induction f with
  | zero => intro i s h; omega
  | succ f ih =>
    intro i s hf
    unfold heapDownFuncLoopA
    simp only []
    split
    · exact .pure (Nat.le_refl _)
    · rename_i hge
      have h2 : 2 ≤ n / (i + 1) := by rw [Nat.le_div_iff_mul_le (by omega)]; omega
      have hl := log2_half _ h2
      refine (HeapRuns.bind (c := 1 + 2 * Nat.log2 (n / (i + 1) / 2)) (heapSmallerChildFuncA_runs (2 * i + 1) n s (by omega) hn) ?_).mono (by omega)
        (fun _ _ h => h)
      rintro j s ⟨h3, h4⟩
      have hm : Nat.log2 (n / (j + 1)) ≤ Nat.log2 (n / (i + 1) / 2) := by
        apply log2_mono
        rw [Nat.div_div_eq_div_mul]
        exact Nat.div_le_div_left (by omega) (by omega)
      refine (HeapRuns.ask (b := 2 * Nat.log2 (n / (i + 1) / 2)) (by omega) (by omega) ?_).mono (by omega) (fun _ _ h => h)
      intro v s
      cases v with
      | false => exact .pure (Nat.le_refl _)
      | true =>
        exact HeapRuns.swap (by omega) (by omega) (fun s => (ih j s (by omega)).mono (by omega) (fun _ _ h => by omega))

theorem heapDownFuncA_runs (i n : Nat) (s : HS T τ) (hn : n ≤ a.len) :
    HeapRuns less a (2 * Nat.log2 (n / (i + 1))) s (fun _ _ => True) (heapDownFuncA a i n less s) :=
  (HeapRuns.bind (c := 0) (heapDownFuncLoopA_runs n hn (n + 1) i s (by omega)) (fun _ _ _ => .pure trivial)).mono (by omega) (fun _ _ h => h)

theorem makeHeapFuncLoopA_runs (n : Nat) (hn : n ≤ a.len) (i : Nat) : ∀ (s : HS T τ),
    HeapRuns less a (2 * heightSum n i) s (fun _ _ => True) (makeHeapFuncLoopA less a n i s) := by
  induction i with
  | zero => intro s; exact .pure trivial
  | succ i ih =>
    intro s
    exact (HeapRuns.bind (heapDownFuncA_runs i n s hn) (fun _ s _ => ih s)).mono (by simp only [heightSum]; omega) (fun _ _ h => h)

theorem makeHeapFuncA_runs (s : HS T τ) : HeapRuns less a (2 * a.len) s (fun _ _ => True) (makeHeapFuncA a less s) :=
  (makeHeapFuncLoopA_runs a.len (Nat.le_refl _) _ s).mono (by have := heightSum_le a.len (a.len / 2); omega) (fun _ _ h => h)

theorem removeHeapFuncSiftA_runs (i n : Nat) (s : HS T τ) (hi : i ≤ n) (hn : n < a.len) :
    HeapRuns less a (2 * Nat.log2 n) s (fun _ _ => True) (removeHeapFuncSiftA a i n less s) := by
  unfold removeHeapFuncSiftA
  split
  · rename_i hne
    have hin : i < n := by omega
    refine HeapRuns.swap (by omega) hn (fun s => ?_)
    simp only [Int.toNat_natCast]
    have hb := log2_add_le (n / (i + 1)) (i + 1) n (by have : 1 ≤ n / (i + 1) := by rw [Nat.le_div_iff_mul_le (by omega)]; omega
                                                       omega) (by omega) (Nat.div_mul_le_self _ _)
    refine (HeapRuns.bind (c := Nat.log2 (i + 1)) (heapDownFuncA_runs i n s (by omega)) (fun v s _ => ?_)).mono (by omega) (fun _ _ h => h)
    cases v with
    | false => exact heapUpFuncA_runs i s (by omega)
    | true => exact .pure trivial
  · exact .pure trivial

end

/-! ## A comparison function without access to the heap is the case of `Model/HeapMem.lean` -/

section
variable (less : LessM T τ)

/-- A comparison function with a state of its own only, as code over the whole state. -/
def LessM.wide (less : LessM T τ) : LessA T τ := fun x y => HS.call (less x y)

theorem heapUpFuncLoopA_wide (f : Nat) (a : Sl) (j : Nat) : heapUpFuncLoopA less.wide f a j = heapUpFuncLoopM less f a j := by
  induction f generalizing j with
  | zero => rfl
  | succ f ih => simp only [heapUpFuncLoopA, heapUpFuncLoopM, ih, LessM.wide]

theorem heapUpFuncA_wide (a : Sl) (j : Nat) : heapUpFuncA a j less.wide = heapUpFuncM a j less := heapUpFuncLoopA_wide _ _ _ _

theorem heapDownFuncLoopA_wide (f : Nat) (a : Sl) (i n : Nat) : heapDownFuncLoopA less.wide f a i n = heapDownFuncLoopM less f a i n := by
  induction f generalizing i with
  | zero => rfl
  | succ f ih => simp only [heapDownFuncLoopA, heapDownFuncLoopM, ih, heapSmallerChildFuncA, heapSmallerChildFuncM, LessM.wide]

theorem heapDownFuncA_wide (a : Sl) (i n : Nat) : heapDownFuncA a i n less.wide = heapDownFuncM a i n less := by
  simp only [heapDownFuncA, heapDownFuncM, heapDownFuncLoopA_wide]

theorem makeHeapFuncLoopA_wide (a : Sl) (n i : Nat) : makeHeapFuncLoopA less.wide a n i = makeHeapFuncLoopM less a n i := by
  induction i with
  | zero => rfl
  | succ i ih => simp only [makeHeapFuncLoopA, makeHeapFuncLoopM, ih, heapDownFuncA_wide]

end

/-! ## The functions of the API -/

section
variable {less : LessA T τ}

theorem Sl.append_added [GoZero T] (grow : Nat → Nat → Nat) (h : Sl) (v : T) (m : Mem T) (hw : h.WF m) :
    ∃ m1 h1, h.append grow [v] m = .ok h1 m1 ∧ AddedLast m h v m1 h1 ∧ h1.len = h.len + 1 := by
  obtain ⟨h1, m1, e, g, hl, hr⟩ := Sl.append_spec grow h [v] m hw
  refine ⟨m1, h1, e, ⟨g.wf, g.read, ?_, ?_⟩, by simpa using hl⟩
  · intro hc
    obtain ⟨e1, e2⟩ := hr (by simp; omega)
    refine ⟨by simpa using e1, by rw [e2]; rfl, ?_⟩
    intro k hk
    rw [e2, Mem.cell_write_one, if_neg hk]
  · intro hc
    have ht : h1.off = m.top := by
      unfold Sl.append at e
      simp only [List.length_cons, List.length_nil] at e
      rw [if_neg (by omega)] at e
      cases e; rfl
    exact ⟨by omega, g.prefix_ (by omega)⟩

theorem pushHeapFuncA_runs [GoZero T] (grow : Nat → Nat → Nat) (v : T) (s : HS T τ) (hw : s.heap.WF s.mem) :
    ∃ m1 h1, AddedLast s.mem s.heap v m1 h1 ∧
      HeapRuns less h1 (Nat.log2 (s.heap.len + 1)) ⟨m1, s.st, h1⟩ (fun _ _ => True) (pushHeapFuncA grow v less s) := by
  obtain ⟨m1, h1, e, ha, hl⟩ := Sl.append_added grow s.heap v s.mem hw
  refine ⟨m1, h1, ha, ?_⟩
  have : pushHeapFuncA grow v less s = heapUpFuncA h1 (h1.len - 1) less ⟨m1, s.st, h1⟩ := by
    simp only [pushHeapFuncA, GoM.bind_def, HS.recv, HS.on, e, HS.assign]
  rw [this]
  have := heapUpFuncA_runs (less := less) (a := h1) (h1.len - 1) ⟨m1, s.st, h1⟩ (by omega)
  rwa [hl] at this ⊢

theorem cutTo_eq (h : Sl) (n : Nat) (hn : n < h.len) (hc : h.len ≤ h.cap) (x : GoM (HS T τ) Unit) (s : HS T τ) :
    (x >>= fun _ => (do
      let h' ← HS.on (h.slice 0 (n : Int))
      HS.assign h'
      HS.on (h.get (n : Int)) : GoM (HS T τ) T)) s = cutTo h n (x s) := by
  rw [GoM.bind_def]
  cases x s with
  | ok u s1 =>
    simp only [cutTo, GoM.bind_def, HS.on, Sl.slice_zero h _ n (by omega), HS.assign, Sl.get]
    rw [if_pos (by omega)]
    simp
  | panic s1 => rfl
  | diverge => rfl

theorem popHeapFuncA_runs (s : HS T τ) (hw : s.heap.WF s.mem) (n : Nat) (hn : s.heap.len = n + 1) :
    ∃ r, HeapRuns less s.heap (2 * Nat.log2 n) s (fun _ _ => True) r ∧ popHeapFuncA less s = cutTo s.heap n r := by
  have hi : ((s.heap.len : Int) - 1) = (n : Nat) := by omega
  refine ⟨(do heapSwapM s.heap ((0 : Nat) : Int) (n : Int); let _ ← heapDownFuncA s.heap 0 n less; pure () : GoM (HS T τ) Unit) s, ?_, ?_⟩
  · refine HeapRuns.swap (by omega) (by omega) (fun s1 => ?_)
    have := heapDownFuncA_runs (less := less) (a := s.heap) 0 n s1 (by omega)
    simp only [Nat.zero_add, Nat.div_one] at this
    exact (HeapRuns.bind (c := 0) this (fun _ _ _ => .pure trivial)).mono (by omega) (fun _ _ h => h)
  · rw [← cutTo_eq s.heap n (by omega) hw.1]
    simp only [popHeapFuncA, GoM.bind_def, HS.recv, hi, Int.toNat_natCast]
    cases heapSwapM s.heap ((0 : Nat) : Int) (n : Int) s with
    | ok u s1 =>
      simp only
      cases heapDownFuncA s.heap 0 n less s1 <;> rfl
    | panic s1 => rfl
    | diverge => rfl

theorem popHeapFuncA_empty (s : HS T τ) (hn : s.heap.len = 0) : popHeapFuncA less s = .panic s := by
  simp only [popHeapFuncA, GoM.bind_def, HS.recv]
  rw [heapSwapM_panic (.inl (by omega))]

theorem removeHeapFuncA_runs (s : HS T τ) (hw : s.heap.WF s.mem) (i n : Nat) (hn : s.heap.len = n + 1) (hi : i ≤ n) :
    ∃ r, HeapRuns less s.heap (2 * Nat.log2 n) s (fun _ _ => True) r ∧ removeHeapFuncA (i : Int) less s = cutTo s.heap n r := by
  have hh : ((s.heap.len : Int) - 1) = (n : Nat) := by omega
  refine ⟨_, removeHeapFuncSiftA_runs i n s hi (by omega), ?_⟩
  rw [← cutTo_eq s.heap n (by omega) hw.1]
  simp only [removeHeapFuncA, GoM.bind_def, HS.recv, hh]

theorem removeHeapFuncA_range (s : HS T τ) (i : Int) (hi : ¬ (0 ≤ i ∧ i < s.heap.len)) : removeHeapFuncA i less s = .panic s := by
  simp only [removeHeapFuncA, GoM.bind_def, HS.recv, removeHeapFuncSiftA]
  by_cases hn : (s.heap.len : Int) - 1 = i
  · rw [if_neg (by omega)]
    simp only [GoM.pure_apply, HS.on, Sl.slice]
    rw [if_neg (by omega)]
  · rw [if_pos hn]
    simp only [GoM.bind_def]
    rw [heapSwapM_panic (.inl hi)]

/-! ## What the steps preserve -/

theorem Acts.keeps {a : Sl} {I : HS T τ → Prop} (hl : ∀ x y s b s', I s → less x y s = .ok b s' → I s')
    (hx : ∀ i j s, i < a.len → j < a.len → I s → I (s.exchange a i j)) {n : Nat} {s s' : HS T τ} (h : Acts less a n s s') (hi : I s) : I s' := by
  induction h with
  | stop => exact hi
  | call i j _ _ h _ ih => exact ih (hl _ _ _ _ _ hi h)
  | swap i j h1 h2 _ ih => exact ih (hx i j _ h1 h2 hi)

theorem exchange_write (a : Sl) (i j : Nat) (hi : i < a.len) (hj : j < a.len) (s : HS T τ) :
    a.read (s.exchange a i j).mem = swapped (a.read s.mem) i j (by simpa using hi) (by simpa using hj) := by
  apply List.ext_getElem (by simp [swapped])
  intro k h1 h2
  have h1' : k < a.len := by simpa using h1
  simp only [swapped, Sl.read_getElem, HS.exchange, List.getElem_set]
  grind

theorem exchange_perm (a : Sl) (i j : Nat) (hi : i < a.len) (hj : j < a.len) (s : HS T τ) :
    (a.read (s.exchange a i j).mem).Perm (a.read s.mem) := by
  rw [exchange_write a i j hi hj]; exact swapped_perm _ _ _ _ _

theorem exchange_out (a : Sl) (i j : Nat) (hi : i < a.len) (hj : j < a.len) (s : HS T τ) (k : Nat) (hk : k < a.off ∨ a.off + a.len ≤ k) :
    (s.exchange a i j).mem.cell k = s.mem.cell k := by
  simp only [HS.exchange]
  rw [if_neg (by omega), if_neg (by omega)]

/-! ## `IsHeapFunc` -/

theorem isHeapFuncLoopA_asked (a : Sl) : ∀ (r c : Nat) (s : HS T τ), 1 ≤ c → c + r ≤ a.len ∨ r = 0 →
    match isHeapFuncLoopA a less r c ((c - 1) / 2) s with
    | .ok true s' => AskedPairs less a c (c + r) s s'
    | .ok false s' => ∃ d s1, c ≤ d ∧ d < c + r ∧ AskedPairs less a c d s s1 ∧ less (s1.mem.cell (a.off + (d - 1) / 2)) (s1.mem.cell (a.off + d)) s1 = .ok false s'
    | .panic s' => ∃ d s1, c ≤ d ∧ d < c + r ∧ AskedPairs less a c d s s1 ∧ less (s1.mem.cell (a.off + (d - 1) / 2)) (s1.mem.cell (a.off + d)) s1 = .panic s'
    | .diverge => ∃ d s1, c ≤ d ∧ d < c + r ∧ AskedPairs less a c d s s1 ∧ less (s1.mem.cell (a.off + (d - 1) / 2)) (s1.mem.cell (a.off + d)) s1 = .diverge := by
  intro r
  induction r with
  | zero => intro c s _ _; exact .stop c s
  | succ r ih =>
    intro c s hc hr
    unfold isHeapFuncLoopA
    have hp : (if c % 2 = 0 then (c - 1) / 2 + 1 else (c - 1) / 2) = (c + 1 - 1) / 2 := by split <;> omega
    simp only [GoM.bind_def, hp]
    rw [HS.on_get (by omega)]
    simp only []
    rw [HS.on_get (by omega)]
    simp only []
    cases e : less (s.mem.cell (a.off + (c - 1) / 2)) (s.mem.cell (a.off + c)) s with
    | panic s1 => exact ⟨c, s, by omega, by omega, .stop c s, e⟩
    | diverge => exact ⟨c, s, by omega, by omega, .stop c s, e⟩
    | ok b s1 =>
      cases b with
      | false => exact ⟨c, s, by omega, by omega, .stop c s, e⟩
      | true =>
        have := ih (c + 1) s1 (by omega) (by omega)
        simp only [Bool.not_true, Bool.false_eq_true, if_false]
        revert this
        cases isHeapFuncLoopA a less r (c + 1) ((c + 1 - 1) / 2) s1 with
        | ok b s2 =>
          cases b with
          | true => intro h; rw [show c + (r + 1) = c + 1 + r by omega]; exact .call e h
          | false => rintro ⟨d, s3, h1, h2, h3, h4⟩; exact ⟨d, s3, by omega, by omega, .call e h3, h4⟩
        | panic s2 => rintro ⟨d, s3, h1, h2, h3, h4⟩; exact ⟨d, s3, by omega, by omega, .call e h3, h4⟩
        | diverge => rintro ⟨d, s3, h1, h2, h3, h4⟩; exact ⟨d, s3, by omega, by omega, .call e h3, h4⟩

end

end Stl4go
