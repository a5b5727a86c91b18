import Verif.Spec.Growth
import Verif.Proofs.HeapAny
import Verif.Proofs.Vector
/-! # Lemmas: memory allocated by growing containers -/
namespace Stl4go
variable {T τ σ α β : Type}

/-- What holds after a computation, and after a panic in it. -/
def Sat (x : GoM σ α) (s : σ) (Q : α → σ → Prop) (E : σ → Prop) : Prop :=
  match x s with
  | .ok a s' => Q a s'
  | .panic s' => E s'
  | .diverge => True

theorem Sat.bind {x : GoM σ α} {f : α → GoM σ β} {s : σ} {Q : β → σ → Prop} {E : σ → Prop} (h : Sat x s (fun a s1 => Sat (f a) s1 Q E) E) :
    Sat (x >>= f) s Q E := by
  unfold Sat at h ⊢
  rw [GoM.bind_def]
  cases e : x s with
  | ok a s1 => rw [e] at h; exact h
  | panic s1 => rw [e] at h; exact h
  | diverge => trivial

theorem Sat.mono {x : GoM σ α} {s : σ} {Q Q' : α → σ → Prop} {E E' : σ → Prop} (h : Sat x s Q E) (hq : ∀ a s, Q a s → Q' a s) (he : ∀ s, E s → E' s) :
    Sat x s Q' E' := by
  unfold Sat at h ⊢
  cases e : x s with
  | ok a s1 => rw [e] at h; exact hq _ _ h
  | panic s1 => rw [e] at h; exact he _ h
  | diverge => trivial

theorem Sat.pure {a : α} {s : σ} {Q : α → σ → Prop} {E : σ → Prop} (h : Q a s) : Sat (Pure.pure a : GoM σ α) s Q E := h

theorem Sat.on {x : GoM (Mem T) α} {s : VS T} {Q : α → VS T → Prop} {E : VS T → Prop}
    (h : Sat x s.mem (fun a m => Q a { s with mem := m }) (fun m => E { s with mem := m })) : Sat (VS.on x) s Q E := by
  unfold Sat at h ⊢
  unfold VS.on
  cases e : x s.mem <;> rw [e] at h <;> exact h

theorem Sat.onH {x : GoM (Mem T) α} {s : HS T τ} {Q : α → HS T τ → Prop} {E : HS T τ → Prop}
    (h : Sat x s.mem (fun a m => Q a { s with mem := m }) (fun m => E { s with mem := m })) : Sat (HS.on x) s Q E := by
  unfold Sat at h ⊢
  unfold HS.on
  cases e : x s.mem <;> rw [e] at h <;> exact h

theorem Sat.recv {f : Sl → GoM (VS T) α} {s : VS T} {Q : α → VS T → Prop} {E : VS T → Prop} (h : Sat (f s.v) s Q E) : Sat (VS.recv >>= f) s Q E := h

theorem Sat.recvH {f : Sl → GoM (HS T τ) α} {s : HS T τ} {Q : α → HS T τ → Prop} {E : HS T τ → Prop} (h : Sat (f s.heap) s Q E) : Sat (HS.recv >>= f) s Q E := h

/-! ## Computations that allocate nothing -/

/-- The computation allocates nothing. -/
abbrev NoAlloc (x : GoM (Mem T) α) (m : Mem T) : Prop := Sat x m (fun _ m' => m'.top = m.top) (fun m' => m'.top = m.top)

theorem NoAlloc.bind {x : GoM (Mem T) α} {f : α → GoM (Mem T) β} {m : Mem T} (hx : NoAlloc x m) (hf : ∀ a m, NoAlloc (f a) m) : NoAlloc (x >>= f) m :=
  Sat.bind (hx.mono (fun a m1 h => (hf a m1).mono (fun _ _ h1 => h1.trans h) (fun _ h1 => h1.trans h)) (fun _ h => h))

theorem Sl.get_noAlloc (a : Sl) (i : Int) (m : Mem T) : NoAlloc (a.get i) m := by
  unfold NoAlloc Sat Sl.get; split <;> (rename_i h; split at h <;> cases h <;> rfl)

theorem Sl.put_noAlloc (a : Sl) (i : Int) (v : T) (m : Mem T) : NoAlloc (a.put i v) m := by
  unfold NoAlloc Sat Sl.put; split <;> (rename_i h; split at h <;> cases h <;> rfl)

theorem Sl.slice_sat (a : Sl) (lo hi : Int) (m : Mem T) :
    Sat (a.slice lo hi) m (fun r m' => m' = m ∧ r.cap = a.cap - lo.toNat ∧ r.len = (hi - lo).toNat ∧ 0 ≤ lo ∧ lo ≤ hi ∧ hi ≤ a.cap) (fun m' => m' = m) := by
  unfold Sat Sl.slice
  split <;> (rename_i h; split at h <;> cases h)
  · exact ⟨rfl, rfl, rfl, by assumption⟩
  · rfl

theorem removeIfLoop_sat (a : Sl) (cond : σ → T → σ × Bool) (n : Nat) : ∀ (k j : Nat) (t : σ) (m : Mem T),
    Sat (removeIfLoop a cond n k j t) m (fun r m' => m'.top = m.top ∧ r.2 ≤ j + n) (fun m' => m'.top = m.top) := by
  induction n with
  | zero => intro k j t m; exact Sat.pure ⟨rfl, Nat.le_refl _⟩
  | succ n ih =>
    intro k j t m
    unfold removeIfLoop
    refine Sat.bind ((Sl.get_noAlloc _ _ _).mono (fun v m1 h1 => ?_) (fun _ h => h))
    simp only
    split
    · refine Sat.bind ((Sl.put_noAlloc _ _ _ _).mono (fun _ m2 h2 => ?_) (fun _ h => h.trans h1))
      exact (ih _ _ _ _).mono (fun r m3 h3 => ⟨h3.1.trans (h2.trans h1), by omega⟩) (fun m3 h3 => h3.trans (h2.trans h1))
    · exact (ih _ _ _ _).mono (fun r m3 h3 => ⟨h3.1.trans h1, by omega⟩) (fun m3 h3 => h3.trans h1)

theorem removeIf_sat (a : Sl) (cond : σ → T → σ × Bool) (t : σ) (m : Mem T) :
    Sat (Stl4go.removeIf a cond t) m (fun r m' => m'.top = m.top ∧ r.2.cap = a.cap ∧ r.2.len ≤ a.len) (fun m' => m'.top = m.top) := by
  unfold Stl4go.removeIf
  refine Sat.bind ((removeIfLoop_sat _ _ _ _ _ _ _).mono (fun r m1 h1 => ?_) (fun _ h => h))
  refine Sat.bind ((Sl.slice_sat _ _ _ _).mono (fun v m2 h2 => ?_) (fun _ h => by rw [h]; exact h1.1))
  obtain ⟨rfl, hc, hl, _⟩ := h2
  refine Sat.pure ⟨h1.1, ?_, ?_⟩ <;> simp only <;> omega

theorem VIter.collect_noAlloc (f : Nat) : ∀ (it : VIter) (m : Mem T), NoAlloc (VIter.collect f it) m := by
  induction f with
  | zero => intro it m; exact trivial
  | succ f ih =>
    intro it m
    unfold VIter.collect
    split
    · exact NoAlloc.bind (Sl.get_noAlloc _ _ _) (fun x m => NoAlloc.bind (ih _ _) (fun _ _ => Sat.pure rfl))
    · exact Sat.pure rfl

/-! ## The potential: five times the capacity pays for everything allocated so far -/

/-- From `m` and `v` to `m'` and `v'`, where `a` cells were allocated for arguments and `d` values were added. The last part is for modest growth and valid calls. -/
structure Paid (P : Prop) (k a d : Nat) (m : Mem T) (v : Sl) (m' : Mem T) (v' : Sl) : Prop where
  cap : v.cap ≤ v'.cap
  top : m'.top + 5 * v.cap ≤ m.top + a + 5 * v'.cap
  len : P → v'.len ≤ v.len + d
  tight : P → v'.cap ≤ max v.cap (2 * (v.len + d) + k)

theorem Paid.same {P : Prop} {k a d : Nat} {m m' : Mem T} {v : Sl} (h : m'.top = m.top) : Paid P k a d m v m' v :=
  ⟨Nat.le_refl _, by omega, fun _ => by omega, fun _ => by omega⟩

theorem Paid.cut {P : Prop} {k a d : Nat} {m m' : Mem T} {v v' : Sl} (h : m'.top = m.top) (hc : v'.cap = v.cap) (hl : v'.len ≤ v.len) : Paid P k a d m v m' v' :=
  ⟨by omega, by omega, fun _ => by omega, fun _ => by omega⟩

theorem Paid.trans {P Q : Prop} {k a b d e : Nat} {m m1 m2 : Mem T} {v v1 v2 : Sl} (h1 : Paid P k a d m v m1 v1) (h2 : Paid Q k b e m1 v1 m2 v2) :
    Paid (P ∧ Q) k (a + b) (d + e) m v m2 v2 :=
  ⟨Nat.le_trans h1.cap h2.cap, by have := h1.top; have := h2.top; omega, fun h => by have := h1.len h.1; have := h2.len h.2; omega,
    fun h => by have := h1.len h.1; have := h1.tight h.1; have := h2.tight h.2; omega⟩

theorem Paid.weaken {P Q : Prop} {k a d : Nat} {m m' : Mem T} {v v' : Sl} (h : Paid P k a d m v m' v') (hq : Q → P) : Paid Q k a d m v m' v' :=
  ⟨h.cap, h.top, fun q => h.len (hq q), fun q => h.tight (hq q)⟩

theorem Sl.append_paid [GoZero T] {grow : Nat → Nat → Nat} (hg : Geometric grow) (k : Nat) (v : Sl) (ys : List T) (m : Mem T) :
    ∃ v' m', v.append grow ys m = .ok v' m' ∧ Paid (Modest grow k) k 0 ys.length m v m' v' := by
  unfold Sl.append
  simp only
  split
  · exact ⟨_, _, rfl, ⟨Nat.le_refl _, by simp only [Mem.write_top]; omega, fun _ => Nat.le_refl _, fun _ => by simp only; omega⟩⟩
  · rename_i hc
    have h5 := hg v.cap (v.len + ys.length) (by omega)
    refine ⟨_, _, rfl, ⟨?_, ?_, fun _ => Nat.le_refl _, fun hm => ?_⟩⟩
    · simp only; omega
    · simp only [Mem.alloc_top, List.length_append, Sl.read_length, List.length_replicate]
      omega
    · have := hm v.cap (v.len + ys.length) (by omega)
      simp only; omega

/-- What an operation on a vector or stack costs. -/
abbrev VPaid (P : Prop) (k a d : Nat) (x : GoM (VS T) α) (s : VS T) : Prop :=
  Sat x s (fun _ s' => Paid P k a d s.mem s.v s'.mem s'.v) (fun s' => Paid P k a d s.mem s.v s'.mem s'.v)

theorem VPaid.observe {P : Prop} {k a d : Nat} {x : GoM (VS T) α} {s : VS T} (h : VPaid P k a d x s) (f : α → DObs T) :
    Paid P k a d s.mem s.v (VS.observe f x s).2.mem (VS.observe f x s).2.v := by
  unfold VPaid Sat at h
  unfold VS.observe
  cases e : x s <;> rw [e] at h
  · exact h
  · exact h
  · exact Paid.same rfl

section
variable [GoZero T] {grow : Nat → Nat → Nat} {P : Prop} {k a d : Nat}

theorem Vec.pushBack_paid (hg : Geometric grow) (k : Nat) (x : T) (s : VS T) : VPaid (Modest grow k) k 0 1 (Vec.pushBack grow x) s := by
  obtain ⟨v', m', e, h⟩ := Sl.append_paid hg k s.v [x] s.mem
  simp only [VPaid, Sat, Vec.pushBack, GoM.bind_def, VS.recv, VS.on, e, VS.assign]
  exact h

theorem Stk.push_paid (hg : Geometric grow) (k : Nat) (x : T) (s : VS T) : VPaid (Modest grow k) k 0 1 (Stk.push grow x) s := Vec.pushBack_paid hg k x s

omit [GoZero T] in
/-- Shorten the slice. -/
theorem cut_sat (v : Sl) (hi : Int) (hv : hi ≤ v.len) (f : Sl → GoM (VS T) α) (s : VS T) (m0 : Mem T) (h0 : s.mem.top = m0.top) (hs : s.v = v)
    (hf : ∀ t : Sl, t.cap = v.cap → t.len ≤ v.len → Sat (f t) s (fun _ s' => Paid P k a d m0 v s'.mem s'.v) (fun s' => Paid P k a d m0 v s'.mem s'.v)) :
    Sat (do let t ← VS.on (v.slice 0 hi); f t : GoM (VS T) α) s (fun _ s' => Paid P k a d m0 v s'.mem s'.v)
      (fun s' => Paid P k a d m0 v s'.mem s'.v) := by
  refine Sat.bind (Sat.on ((Sl.slice_sat _ _ _ _).mono ?_ ?_))
  · rintro t m ⟨rfl, hc, hl, _⟩
    exact hf t (by simpa using hc) (by omega)
  · rintro m rfl
    subst hs
    exact .same h0

theorem Vec.popBack_paid (s : VS T) : VPaid P k a d (Vec.popBack) s := by
  unfold Vec.popBack
  refine Sat.recv ?_
  refine Sat.bind (Sat.on ((Sl.get_noAlloc _ _ _).mono ?_ (fun m h => .same h)))
  intro x m h
  refine Sat.bind (Sat.on ((Sl.put_noAlloc _ _ _ _).mono ?_ (fun m' h' => .same (h'.trans h))))
  intro _ m' h'
  exact cut_sat _ _ (by omega) _ _ s.mem (h'.trans h) rfl (fun t hc hl => .cut (h'.trans h) hc hl)

omit [GoZero T] in
theorem Stk.pop_paid (s : VS T) : VPaid P k a d (Stk.pop) s := by
  unfold Stk.pop
  refine Sat.recv ?_
  refine Sat.bind (Sat.on ((Sl.get_noAlloc _ _ _).mono ?_ (fun m h => .same h)))
  intro x m h
  exact cut_sat _ _ (by omega) _ _ s.mem h rfl (fun t hc hl => .cut h hc hl)

theorem Stk.tryPop_paid (s : VS T) : VPaid P k a d (Stk.tryPop) s := by
  unfold Stk.tryPop
  refine Sat.recv ?_
  split
  · exact Sat.pure (.same rfl)
  · refine Sat.bind (Sat.on ((Sl.get_noAlloc _ _ _).mono ?_ (fun m h => .same h)))
    intro x m h
    exact cut_sat _ _ (by omega) _ _ s.mem h rfl (fun t hc hl => .cut h hc hl)

omit [GoZero T] in
theorem Stk.clear_paid (s : VS T) : VPaid P k a d (Stk.clear) s := by
  unfold Stk.clear
  refine Sat.recv ?_
  exact cut_sat s.v 0 (by omega) VS.assign s s.mem rfl rfl (fun t hc hl => Paid.cut (v' := t) rfl hc hl)

omit [GoZero T] in
/-- Methods that only look, or write one element. -/
theorem look_paid {x : Sl → GoM (Mem T) α} (h : ∀ v m, NoAlloc (x v) m) (s : VS T) : VPaid P k a d (do let v ← VS.recv; VS.on (x v)) s := by
  refine Sat.recv ?_
  exact Sat.on ((h _ _).mono (fun _ m h => .same h) (fun m h => .same h))

theorem Vec.clear_paid (s : VS T) : VPaid P k a d (Vec.clear) s := by
  unfold Vec.clear
  refine Sat.recv ?_
  refine Sat.bind (Sat.on ?_)
  exact cut_sat s.v 0 (by omega) VS.assign _ s.mem rfl rfl (fun t hc hl => Paid.cut (v' := t) rfl hc hl)

theorem Vec.append_paid (hg : Geometric grow) (k : Nat) (xs : List T) (s : VS T) :
    VPaid (Modest grow k) k xs.length xs.length (do let x ← VS.on (Sl.lit xs); Vec.append grow x) s := by
  refine Sat.bind (Sat.on ?_)
  obtain ⟨v', m', e, h⟩ := Sl.append_paid hg k s.v (Sl.read (s.mem.alloc xs) ⟨s.mem.top, xs.length, xs.length⟩) (s.mem.alloc xs)
  rw [Sl.read_length] at h
  have : Paid (Modest grow k) k xs.length xs.length s.mem s.v m' v' :=
    ⟨h.cap, by have := h.top; rw [Mem.alloc_top] at this; omega, h.len, h.tight⟩
  simpa only [Sat, Sl.lit, Vec.append, GoM.bind_def, VS.recv, VS.on, Sl.load, e, VS.assign] using this

theorem Vec.removeRange_paid (hg : Geometric grow) (k : Nat) (i j : Int) (s : VS T) : VPaid (Modest grow k ∧ i ≤ j) k 0 0 (Vec.removeRange grow i j) s := by
  unfold Vec.removeRange
  refine Sat.recv ?_
  refine Sat.bind (Sat.on ((Sl.slice_sat _ _ _ _).mono ?_ (fun m h => .same (by rw [h]))))
  rintro a m1 ⟨rfl, hac, hal, hi⟩
  refine Sat.bind (Sat.on ((Sl.slice_sat _ _ _ _).mono ?_ (fun m h => .same (by rw [h]))))
  rintro b m2 ⟨rfl, hbc, hbl, hj⟩
  refine Sat.bind (Sat.on ?_)
  show Sat _ s _ _
  obtain ⟨v', m', e, h⟩ := Sl.append_paid hg k a (b.read s.mem) s.mem
  rw [Sl.read_length] at h
  have hp : Paid (Modest grow k ∧ i ≤ j) k 0 0 s.mem s.v m' v' := by
    refine ⟨?_, ?_, fun hP => ?_, fun hP => ?_⟩
    · have := h.cap; simp only [Int.toNat_zero, Nat.sub_zero] at hac; omega
    · have := h.top; simp only [Int.toNat_zero, Nat.sub_zero] at hac; omega
    · have := h.len hP.1; omega
    · have := h.tight hP.1; simp only [Int.toNat_zero, Nat.sub_zero] at hac; omega
  refine Sat.bind ?_
  simp only [Sat, VS.on, e]
  refine Sat.bind (Sat.bind (Sat.on ((Sl.slice_sat _ _ _ _).mono ?_ ?_)))
  · rintro r m3 ⟨rfl, _⟩
    exact Sat.on (show Paid _ _ _ _ _ _ _ _ from ⟨hp.cap, hp.top, hp.len, hp.tight⟩)
  · rintro m3 rfl
    exact hp

theorem Vec.removeIf_paid (cond : σ → T → σ × Bool) (t : σ) (s : VS T) : VPaid P k a d (Vec.removeIf cond t) s := by
  unfold Vec.removeIf
  refine Sat.recv ?_
  refine Sat.bind (Sat.on ((removeIf_sat _ _ _ _).mono ?_ (fun m h => .same h)))
  rintro r m1 ⟨ht, hc, hl⟩
  refine Sat.bind (Sat.bind (Sat.on ((Sl.slice_sat _ _ _ _).mono ?_ ?_)))
  · rintro w m3 ⟨rfl, _⟩
    exact .cut ht hc hl
  · rintro m3 rfl
    exact .cut ht hc hl

end

/-! ## Histories -/

section
variable [GoZero T] {grow : Nat → Nat → Nat}

theorem Stk.exec_paid (hg : Geometric grow) (k : Nat) (s : VS T) (op : KOp T) (h : op.plain = true) :
    Paid (Modest grow k) k 0 op.adds s.mem s.v (Stk.exec grow s op).2.mem (Stk.exec grow s op).2.v := by
  cases op with
  | new => cases h
  | newCap c => cases h
  | push x => exact (Stk.push_paid hg k x s).observe _
  | pop => exact (Stk.pop_paid s).observe _
  | tryPop => exact (Stk.tryPop_paid s).observe _
  | top => exact (look_paid (fun v m => Sl.get_noAlloc v _ m) s : VPaid _ _ _ _ Stk.top s).observe _
  | clear => exact (Stk.clear_paid s).observe _
  | len => exact .same rfl
  | isEmpty => exact .same rfl

theorem Stk.execAll_paid (hg : Geometric grow) (k : Nat) (ops : List (KOp T)) : ∀ (s : VS T), (∀ op ∈ ops, op.plain = true) →
    Paid (Modest grow k) k 0 ((ops.map KOp.adds).sum) s.mem s.v (Stk.execAll grow s ops).mem (Stk.execAll grow s ops).v := by
  induction ops with
  | nil => intro s _; exact .same rfl
  | cons op ops ih =>
    intro s h
    have h1 := Stk.exec_paid hg k s op (h op (by simp))
    have h2 := ih (Stk.exec grow s op).2 (fun o ho => h o (by simp [ho]))
    exact (h1.trans h2).weaken (fun p => ⟨p, p⟩)

theorem Vec.exec_paid (hg : Geometric grow) (k : Nat) (s : VS T) (op : VOp T) (h : op.plain = true) :
    Paid (Modest grow k ∧ op.Valid) k op.args op.adds s.mem s.v (Vec.exec grow s op).2.mem (Vec.exec grow s op).2.v := by
  cases op with
  | make => cases h
  | makeCap c => cases h
  | of xs => cases h
  | reserve l => cases h
  | shrink => cases h
  | insert i xs => cases h
  | len => exact .same rfl
  | isEmpty => exact .same rfl
  | clear => exact (Vec.clear_paid s).observe _
  | «at» i => exact (look_paid (fun v m => Sl.get_noAlloc v _ m) s : VPaid _ _ _ _ (Vec.at i) s).observe _
  | set i x => exact (look_paid (fun v m => Sl.put_noAlloc v _ _ m) s : VPaid _ _ _ _ (Vec.set i x) s).observe _
  | pushBack x => exact ((Vec.pushBack_paid hg k x s).observe _).weaken (fun p => p.1)
  | popBack => exact (Vec.popBack_paid s).observe _
  | tryPopBack =>
    refine VPaid.observe ?_ _
    show Sat (if (s.v.len == 0) = true then Pure.pure (GoZero.zero, false) else do let e ← Vec.popBack; return (e, true) : GoM (VS T) (T × Bool)) s _ _
    split
    · exact Sat.pure (.same rfl)
    · exact Sat.bind ((Vec.popBack_paid s).mono (fun _ _ h => Sat.pure h) (fun _ h => h))
  | back => exact (look_paid (fun v m => Sl.get_noAlloc v _ m) s : VPaid _ _ _ _ Vec.back s).observe _
  | append xs => exact ((Vec.append_paid hg k xs s).observe _).weaken (fun p => p.1)
  | remove i => exact ((Vec.removeRange_paid hg k i (i + 1) s).observe _).weaken (fun p => ⟨p.1, by omega⟩)
  | removeRange i j => exact (Vec.removeRange_paid hg k i j s).observe _
  | removeLength i n => exact ((Vec.removeRange_paid hg k i (i + n) s).observe _).weaken (fun p => ⟨p.1, by have : 0 ≤ n := p.2; omega⟩)
  | removeIf cond => exact (Vec.removeIf_paid _ _ s).observe _
  | values =>
    refine VPaid.observe ?_ _
    show Sat (VS.on (VIter.collect (s.v.len + 1) ⟨s.v, 0⟩)) s _ _
    exact Sat.on ((VIter.collect_noAlloc _ _ _).mono (fun _ m h => .same h) (fun m h => .same h))

theorem Vec.execAll_paid (hg : Geometric grow) (k : Nat) (ops : List (VOp T)) : ∀ (s : VS T), (∀ op ∈ ops, op.plain = true) →
    Paid (Modest grow k ∧ ∀ op ∈ ops, op.Valid) k ((ops.map VOp.args).sum) ((ops.map VOp.adds).sum) s.mem s.v (Vec.execAll grow s ops).mem (Vec.execAll grow s ops).v := by
  induction ops with
  | nil => intro s _; exact .same rfl
  | cons op ops ih =>
    intro s h
    have h1 := Vec.exec_paid hg k s op (h op (by simp))
    have h2 := ih (Vec.exec grow s op).2 (fun o ho => h o (by simp [ho]))
    exact (h1.trans h2).weaken (fun p => ⟨⟨p.1, p.2 op (by simp)⟩, ⟨p.1, fun o ho => p.2 o (by simp [ho])⟩⟩)

end

/-! ## Queues -/

/-- The computation allocates nothing and leaves the variable alone. -/
abbrev HStays (x : GoM (HS T τ) α) (s : HS T τ) : Prop :=
  Sat x s (fun _ s' => s'.mem.top = s.mem.top ∧ s'.heap = s.heap) (fun s' => s'.mem.top = s.mem.top ∧ s'.heap = s.heap)

theorem HStays.bind {x : GoM (HS T τ) α} {f : α → GoM (HS T τ) β} {s : HS T τ} (hx : HStays x s) (hf : ∀ a s, HStays (f a) s) : HStays (x >>= f) s :=
  Sat.bind (hx.mono (fun a s1 h => (hf a s1).mono (fun _ _ h1 => ⟨h1.1.trans h.1, h1.2.trans h.2⟩) (fun _ h1 => ⟨h1.1.trans h.1, h1.2.trans h.2⟩)) (fun _ h => h))

theorem HStays.on {x : GoM (Mem T) α} {s : HS T τ} (h : NoAlloc x s.mem) : HStays (HS.on x) s :=
  Sat.onH (h.mono (fun _ _ h => ⟨h, rfl⟩) (fun _ h => ⟨h, rfl⟩))

theorem HStays.call (x : GoM τ α) (s : HS T τ) : HStays (HS.call x) s := by
  unfold HStays Sat HS.call
  cases x s.st
  · exact ⟨rfl, rfl⟩
  · exact ⟨rfl, rfl⟩
  · trivial

theorem HStays.pure (a : α) (s : HS T τ) : HStays (Pure.pure a) s := Sat.pure ⟨rfl, rfl⟩

theorem HStays.get (v : Sl) (i : Int) (s : HS T τ) : HStays (HS.on (v.get i)) s := .on (Sl.get_noAlloc _ _ _)

theorem heapSwapM_stays (v : Sl) (i j : Int) (s : HS T τ) : HStays (heapSwapM v i j) s := by
  unfold heapSwapM
  refine .bind (.get _ _ _) (fun _ s => .bind (.get _ _ _) (fun _ s => .bind (.on (Sl.put_noAlloc _ _ _ _)) (fun _ s => .on (Sl.put_noAlloc _ _ _ _))))

theorem heapUpFuncLoopM_stays (less : LessM T τ) (f : Nat) : ∀ (v : Sl) (j : Nat) (s : HS T τ), HStays (heapUpFuncLoopM less f v j) s := by
  induction f with
  | zero => intro v j s; exact trivial
  | succ f ih =>
    intro v j s
    unfold heapUpFuncLoopM
    simp only
    split
    · exact .pure _ _
    · refine .bind (.get _ _ _) (fun x s => .bind (.get _ _ _) (fun y s => .bind (.call _ _) (fun b s => ?_)))
      split
      · exact .pure _ _
      · exact .bind (heapSwapM_stays _ _ _ _) (fun _ s => ih _ _ _)

theorem heapDownFuncLoopM_stays (less : LessM T τ) (f : Nat) : ∀ (v : Sl) (i n : Nat) (s : HS T τ), HStays (heapDownFuncLoopM less f v i n) s := by
  induction f with
  | zero => intro v i n s; exact trivial
  | succ f ih =>
    intro v i n s
    unfold heapDownFuncLoopM
    simp only
    split
    · exact .pure _ _
    · refine .bind ?_ (fun j s => .bind (.get _ _ _) (fun x s => .bind (.get _ _ _) (fun y s => .bind (.call _ _) (fun b s => ?_))))
      · unfold heapSmallerChildFuncM
        split
        · exact .bind (.get _ _ _) (fun x s => .bind (.get _ _ _) (fun y s => .bind (.call _ _) (fun b s => .pure _ _)))
        · exact .pure _ _
      · split
        · exact .pure _ _
        · exact .bind (heapSwapM_stays _ _ _ _) (fun _ s => ih _ _ _ _)

theorem heapUpLoopM_stays [GoOrd T] (f : Nat) : ∀ (v : Sl) (j : Nat) (s : HS T τ), HStays (heapUpLoopM f v j) s := by
  induction f with
  | zero => intro v j s; exact trivial
  | succ f ih =>
    intro v j s
    unfold heapUpLoopM
    simp only
    split
    · exact .pure _ _
    · refine .bind (.get _ _ _) (fun x s => .bind (.get _ _ _) (fun y s => ?_))
      split
      · exact .pure _ _
      · exact .bind (heapSwapM_stays _ _ _ _) (fun _ s => ih _ _ _)

theorem heapDownLoopM_stays [GoOrd T] (f : Nat) : ∀ (v : Sl) (i n : Nat) (s : HS T τ), HStays (heapDownLoopM f v i n) s := by
  induction f with
  | zero => intro v i n s; exact trivial
  | succ f ih =>
    intro v i n s
    unfold heapDownLoopM
    simp only
    split
    · exact .pure _ _
    · refine .bind ?_ (fun j s => .bind (.get _ _ _) (fun x s => .bind (.get _ _ _) (fun y s => ?_)))
      · unfold heapSmallerChildM
        split
        · exact .bind (.get _ _ _) (fun x s => .bind (.get _ _ _) (fun y s => .pure _ _))
        · exact .pure _ _
      · split
        · exact .pure _ _
        · exact .bind (heapSwapM_stays _ _ _ _) (fun _ s => ih _ _ _ _)

/-- What an operation on a queue costs. -/
abbrev HPaid (P : Prop) (k a d : Nat) (x : GoM (HS T τ) α) (s : HS T τ) : Prop :=
  Sat x s (fun _ s' => Paid P k a d s.mem s.heap s'.mem s'.heap) (fun s' => Paid P k a d s.mem s.heap s'.mem s'.heap)

theorem HPaid.observe {P : Prop} {k a d : Nat} {x : GoM (HS T τ) α} {s : HS T τ} (h : HPaid P k a d x s) (f : α → PQObs T) :
    Paid P k a d s.mem s.heap (HS.observe f x s).2.mem (HS.observe f x s).2.heap := by
  unfold HPaid Sat at h
  unfold HS.observe
  cases e : x s <;> rw [e] at h
  · exact h
  · exact h
  · exact Paid.same rfl

theorem HStays.paid {P : Prop} {k a d : Nat} {x : GoM (HS T τ) α} {s : HS T τ} (h : HStays x s) : HPaid P k a d x s :=
  h.mono (fun _ _ h => by rw [h.2]; exact .same h.1) (fun _ h => by rw [h.2]; exact .same h.1)

section
variable [GoZero T] {grow : Nat → Nat → Nat}

/-- Append, then sift up. -/
theorem appendSift_paid (hg : Geometric grow) (k : Nat) (v : T) (sift : Sl → GoM (HS T τ) Unit) (hs : ∀ h s, HStays (sift h) s) (s : HS T τ) :
    HPaid (Modest grow k) k 0 1 (do let h ← HS.recv; let h ← HS.on (h.append grow [v]); HS.assign h; let h ← HS.recv; sift h) s := by
  obtain ⟨v', m', e, h⟩ := Sl.append_paid hg k s.heap [v] s.mem
  have := hs v' { s with mem := m', heap := v' }
  simp only [HPaid, Sat, GoM.bind_def, HS.recv, HS.on, e, HS.assign]
  unfold HStays Sat at this
  cases e2 : sift v' { s with mem := m', heap := v' } <;> rw [e2] at this
  · exact ⟨by rw [this.2]; exact h.cap, by rw [this.2, this.1]; exact h.top, by rw [this.2]; exact h.len, by rw [this.2]; exact h.tight⟩
  · exact ⟨by rw [this.2]; exact h.cap, by rw [this.2, this.1]; exact h.top, by rw [this.2]; exact h.len, by rw [this.2]; exact h.tight⟩
  · trivial

omit [GoZero T] in
/-- Swap the ends, sift down, cut. -/
theorem siftCut_paid {P : Prop} {k a d : Nat} (sift : Sl → Int → GoM (HS T τ) Bool) (hs : ∀ h n s, HStays (sift h n) s) (s : HS T τ) :
    HPaid P k a d (do
      let h ← HS.recv
      let n : Int := h.len - 1
      heapSwapM h 0 n
      let _ ← sift h n
      let h' ← HS.on (h.slice 0 n)
      HS.assign h'
      HS.on (h.get n) : GoM (HS T τ) T) s := by
  refine Sat.recvH ?_
  refine Sat.bind ((heapSwapM_stays _ _ _ _).mono ?_ (fun s1 h => by rw [h.2]; exact .same h.1))
  intro _ s1 h1
  refine Sat.bind ((hs _ _ _).mono ?_ (fun s2 h => by rw [h.2, h1.2]; exact .same (h.1.trans h1.1)))
  intro _ s2 h2
  have ht := h2.1.trans h1.1
  refine Sat.bind (Sat.onH ((Sl.slice_sat _ _ _ _).mono ?_ (fun m h => by subst h; rw [h2.2, h1.2]; exact .same ht)))
  rintro t m ⟨rfl, hc, hl, _⟩
  have hp : Paid P k a d s.mem s.heap s2.mem t := .cut ht (by simpa using hc) (by omega)
  refine Sat.bind ?_
  show Sat _ { s2 with heap := t } _ _
  refine (HStays.get _ _ _).mono (fun _ s3 h3 => ?_) (fun s3 h3 => ?_) <;>
  · obtain ⟨m3, st3, v3⟩ := s3
    obtain ⟨h3, h4⟩ := h3
    simp only at h3 h4
    subst h4
    exact ⟨hp.cap, by have := hp.top; simp only; omega, hp.len, hp.tight⟩

theorem PQM.exec_paid (hg : Geometric grow) (k : Nat) (impl : PQImplM T τ) (s : HS T τ) (op : PQOp T) :
    Paid (Modest grow k) k 0 op.adds s.mem s.heap (PQM.exec grow impl s op).2.mem (PQM.exec grow impl s op).2.heap := by
  cases op with
  | push v =>
    refine HPaid.observe ?_ _
    cases impl with
    | ordered o => exact appendSift_paid hg k v (fun h => heapUpM h (h.len - 1)) (fun h s => heapUpLoopM_stays _ _ _ _) s
    | func less => exact appendSift_paid hg k v (fun h => heapUpFuncM h (h.len - 1) less) (fun h s => heapUpFuncLoopM_stays _ _ _ _ _) s
    | nil => exact .same rfl
  | pop =>
    refine HPaid.observe ?_ _
    cases impl with
    | ordered o => exact siftCut_paid (fun h n => heapDownM h 0 n.toNat) (fun h n s => .bind (heapDownLoopM_stays _ _ _ _ _) (fun _ s => .pure _ _)) s
    | func less => exact siftCut_paid (fun h n => heapDownFuncM h 0 n.toNat less) (fun h n s => .bind (heapDownFuncLoopM_stays _ _ _ _ _ _) (fun _ s => .pure _ _)) s
    | nil => exact .same rfl
  | top => exact (HStays.paid (.get s.heap 0 s) : HPaid _ _ _ _ PQM.top s).observe _
  | clear =>
    refine HPaid.observe ?_ _
    refine Sat.recvH ?_
    refine Sat.bind (Sat.onH ((Sl.slice_sat _ _ _ _).mono ?_ (fun m h => by subst h; exact .same rfl)))
    rintro t m ⟨rfl, hc, hl, _⟩
    exact .cut (v' := t) rfl (by simpa using hc) (by omega)
  | len => exact .same rfl
  | isEmpty => exact .same rfl

theorem PQM.execAll_paid (hg : Geometric grow) (k : Nat) (impl : PQImplM T τ) (ops : List (PQOp T)) : ∀ (s : HS T τ),
    Paid (Modest grow k) k 0 ((ops.map PQOp.adds).sum) s.mem s.heap (PQM.execAll grow impl s ops).2.mem (PQM.execAll grow impl s ops).2.heap := by
  induction ops with
  | nil => intro s; exact .same rfl
  | cons op ops ih =>
    intro s
    exact ((PQM.exec_paid hg k impl s op).trans (ih _)).weaken (fun p => ⟨p, p⟩)

end

/-! ## Room, and `Insert` -/

section
variable [GoZero T] {grow : Nat → Nat → Nat}

theorem Vec.pushAll_room (xs : List T) : ∀ (s : VS T), s.v.len + xs.length ≤ s.v.cap →
    (Vec.execAll grow s (xs.map .pushBack)).v = { s.v with len := s.v.len + xs.length } ∧
    (Vec.execAll grow s (xs.map .pushBack)).mem = s.mem.write (s.v.off + s.v.len) xs := by
  induction xs with
  | nil => intro s _; exact ⟨rfl, (Mem.write_nil _ _).symm⟩
  | cons x xs ih =>
    intro s h
    simp only [List.length_cons] at h
    have e : (Vec.exec grow s (.pushBack x)).2 = ⟨s.mem.write (s.v.off + s.v.len) [x], { s.v with len := s.v.len + 1 }⟩ := by
      simp only [Vec.exec, VS.observe, Vec.pushBack, GoM.bind_def, VS.recv, VS.on, Sl.append, List.length_singleton, VS.assign,
        if_pos (show s.v.len + 1 ≤ s.v.cap by omega)]
    simp only [List.map_cons, Vec.execAll, e]
    obtain ⟨h1, h2⟩ := ih ⟨s.mem.write (s.v.off + s.v.len) [x], { s.v with len := s.v.len + 1 }⟩ (by simp only; omega)
    refine ⟨h1.trans ?_, h2.trans ?_⟩
    · simp only [List.length_cons]; congr 1; omega
    · simp only
      rw [show s.v.off + (s.v.len + 1) = s.v.off + s.v.len + [x].length by simp; omega, Mem.write_append]
      rfl

theorem Vec.insert_top (i : Int) (x : Sl) (s : VS T) (h : s.v.cap < s.v.len + x.len) :
    Sat (Vec.insert i x) s (fun _ s' => s'.mem.top = s.mem.top + (s.v.len + x.len) ∧ s'.v.len = s.v.len + x.len ∧ s'.v.cap = s.v.len + x.len) (fun _ => True) := by
  unfold Vec.insert
  refine Sat.recv ?_
  simp only
  rw [if_neg (by omega)]
  refine Sat.bind (Sat.on ?_)
  simp only [Sat, Sl.make]
  rw [if_pos (by omega)]
  refine Sat.bind (Sat.on ((Sl.slice_sat _ _ _ _).mono ?_ (fun _ _ => trivial)))
  rintro t m ⟨rfl, _⟩
  refine Sat.bind (Sat.on ?_)
  refine Sat.bind (Sat.on ((Sl.slice_sat _ _ _ _).mono ?_ (fun _ _ => trivial)))
  rintro t m ⟨rfl, _⟩
  refine Sat.bind (Sat.on ?_)
  refine Sat.bind (Sat.on ((Sl.slice_sat _ _ _ _).mono ?_ (fun _ _ => trivial)))
  rintro t m ⟨rfl, _⟩
  refine Sat.bind (Sat.on ((Sl.slice_sat _ _ _ _).mono ?_ (fun _ _ => trivial)))
  rintro t m ⟨rfl, _⟩
  refine Sat.bind (Sat.on ?_)
  refine ⟨?_, ?_, ?_⟩
  · simp only [Mem.write_top, Mem.alloc_top, List.length_replicate]; omega
  · simp only; omega
  · simp only; omega

/-- One value inserted into a vector whose array is full. -/
theorem Vec.exec_insert_full (s : VS T) (hw : s.v.WF s.mem) (hf : s.v.len = s.v.cap) (i : Nat) (hi : i ≤ s.v.len) (x : T) :
    ∃ s', (Vec.exec grow s (.insert i [x])) = (.unit, s') ∧ s'.v.WF s'.mem ∧ s'.v.len = s.v.len + 1 ∧ s'.v.cap = s.v.len + 1 ∧
      s'.mem.top = s.mem.top + (s.v.len + 2) := by
  obtain ⟨m, v⟩ := s
  simp only at hw hf hi ⊢
  have hx : (⟨m.top, 1, 1⟩ : Sl).WF (m.alloc [x]) := ⟨Nat.le_refl _, by simp only [Mem.alloc_top, List.length_singleton]; omega⟩
  have hw' : v.WF (m.alloc [x]) := ⟨hw.1, by have := hw.2; simp only [Mem.alloc_top]; omega⟩
  obtain ⟨m', v', e, st, _⟩ := Vec.insert_grow i ⟨m.top, 1, 1⟩ hw' hx hi (by simp only; omega)
  have h1 := Vec.insert_top (i : Int) ⟨m.top, 1, 1⟩ ⟨m.alloc [x], v⟩ (by simp only; omega)
  simp only [Sat, e] at h1
  refine ⟨⟨m', v'⟩, ?_, st.wf, h1.2.1, h1.2.2, ?_⟩
  · simp only [Vec.exec, VS.observe, GoM.bind_def, VS.on, Sl.lit, List.length_singleton, e]
  · have := h1.1; simp only [Mem.alloc_top, List.length_singleton] at this; simp only; omega

theorem Vec.insertAll_top (ops : List (Nat × T)) : ∀ (s : VS T), s.v.WF s.mem → s.v.len = s.v.cap → (∀ j (h : j < ops.length), ops[j].1 ≤ s.v.len + j) →
    2 * (Vec.execAll grow s (ops.map (fun p => .insert p.1 [p.2]))).mem.top = 2 * s.mem.top + ops.length * (2 * s.v.len + ops.length + 3) ∧
    (Vec.execAll grow s (ops.map (fun p => .insert p.1 [p.2]))).v.len = s.v.len + ops.length := by
  induction ops with
  | nil => intro s _ _ _; exact ⟨by simp [Vec.execAll], rfl⟩
  | cons p ops ih =>
    intro s hw hf hp
    obtain ⟨s', e, hw', hl, hc, ht⟩ := Vec.exec_insert_full (grow := grow) s hw hf p.1 (hp 0 (by simp)) p.2
    have h := ih s' hw' (by omega) (fun j hj => by have := hp (j + 1) (by simp; omega); simp only [List.getElem_cons_succ] at this; omega)
    simp only [List.map_cons, Vec.execAll, e]
    refine ⟨?_, ?_⟩
    · rw [h.1, hl, ht, List.length_cons]
      generalize ops.length = n
      generalize s.v.len = l
      have e1 : n * (2 * (l + 1) + n + 3) = n * (2 * l + n + 3) + 2 * n := by
        rw [← Nat.mul_comm n 2, ← Nat.mul_add]; congr 1; omega
      have e2 : (n + 1) * (2 * l + (n + 1) + 3) = n * (2 * l + n + 3) + n + (2 * l + n + 4) := by
        rw [Nat.add_mul, Nat.one_mul, show 2 * l + (n + 1) + 3 = (2 * l + n + 3) + 1 by omega, Nat.mul_add, Nat.mul_one]
      omega
    · rw [h.2, hl, List.length_cons]; omega

end

/-! ## Go's policy -/

theorem goGrowLoop_le (f : Nat) : ∀ c n, c ≤ goGrowLoop f c n ∧ goGrowLoop f c n ≤ max c (n + n / 4 + 192) := by
  induction f with
  | zero => intro c n; exact ⟨Nat.le_refl _, Nat.le_max_left _ _⟩
  | succ f ih =>
    intro c n
    unfold goGrowLoop
    split
    · exact ⟨Nat.le_refl _, Nat.le_max_left _ _⟩
    · obtain ⟨h1, h2⟩ := ih (c + (c + 768) / 4) n
      exact ⟨by omega, by omega⟩

theorem goGrow_geometric : Geometric goGrow := by
  intro c n h
  unfold goGrow
  split
  · omega
  · split
    · omega
    · obtain ⟨n, rfl⟩ : ∃ k, n = k + 1 := ⟨n - 1, by omega⟩
      unfold goGrowLoop
      rw [if_neg (by omega)]
      have := (goGrowLoop_le n (c + (c + 768) / 4) (n + 1)).1
      omega

theorem goGrow_modest : Modest goGrow 192 := by
  intro c n h
  unfold goGrow
  split
  · omega
  · split
    · omega
    · have := (goGrowLoop_le n c n).2
      omega

end Stl4go
