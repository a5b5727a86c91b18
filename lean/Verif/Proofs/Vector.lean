import Verif.Spec.Vector
import Verif.Proofs.TransformFill
/-! # Lemmas about `Vector`: each operation on any well-formed vector -/
namespace Stl4go
variable {T σ : Type}

/-- What an operation that leaves contents `s'` does to memory. -/
structure VStep [GoZero T] (m : Mem T) (v : Sl) (m' : Mem T) (v' : Sl) (s' : List T) : Prop where
  wf : v'.WF m'
  read : v'.read m' = s'
  top : m.top ≤ m'.top
  place : (v'.off = v.off ∧ v'.cap = v.cap) ∨ m.top ≤ v'.off ∨ v'.cap = 0
  frame : ∀ k, k < m.top → (k < v.off ∨ v.off + v.cap ≤ k) → m'.cell k = m.cell k
  clean : Clean m v → Clean m' v'

/-- The vector keeps its array, in which only its elements and the places they leave change. -/
structure VStay [GoZero T] (m : Mem T) (v : Sl) (m' : Mem T) (v' : Sl) (s' : List T) : Prop where
  eq : v' = { v with len := s'.length }
  fits : s'.length ≤ v.cap
  top : m.top ≤ m'.top
  cells : ∀ k, k < m.top → m'.cell k = (m.write v.off (s' ++ List.replicate (v.len - s'.length) GoZero.zero)).cell k

/-- The vector has a new array with capacity `c`. -/
structure VMove [GoZero T] (m m' : Mem T) (v' : Sl) (s' : List T) (c : Nat) : Prop where
  len : v'.len = s'.length
  cap : v'.cap = c
  fits : s'.length ≤ c
  place : m.top ≤ v'.off ∨ c = 0
  inside : v'.off + c ≤ m'.top
  top : m.top ≤ m'.top
  all : Sl.read m' { v' with len := c } = s' ++ List.replicate (c - s'.length) GoZero.zero
  keep : ∀ k, k < m.top → m'.cell k = m.cell k

variable [GoZero T]

theorem VStay.refl {m : Mem T} {v : Sl} (h : v.WF m) : VStay m v m v (v.read m) := by
  refine ⟨by simp, by simpa using h.1, Nat.le_refl _, fun k _ => ?_⟩
  simp [Sl.write_read]

theorem VStay.write {m : Mem T} {v : Sl} (s' : List T) (h1 : s'.length ≤ v.cap) :
    VStay m v (m.write v.off (s' ++ List.replicate (v.len - s'.length) GoZero.zero)) { v with len := s'.length } s' :=
  ⟨rfl, h1, Nat.le_refl _, fun _ _ => rfl⟩

/-- First only memory that was not allocated changes. -/
theorem VStay.after {m m1 m' : Mem T} {v v' : Sl} {s' : List T} (ht : m.top ≤ m1.top) (hf : ∀ k, k < m.top → m1.cell k = m.cell k)
    (h : VStay m1 v m' v' s') : VStay m v m' v' s' := by
  refine ⟨h.eq, h.fits, Nat.le_trans ht h.top, fun k hk => ?_⟩
  rw [h.cells k (by omega), Mem.write_cell, Mem.write_cell, hf k hk]

theorem VMove.after {m m1 m' : Mem T} {v' : Sl} {s' : List T} {c : Nat} (ht : m.top ≤ m1.top) (hf : ∀ k, k < m.top → m1.cell k = m.cell k)
    (h : VMove m1 m' v' s' c) : VMove m m' v' s' c := by
  refine ⟨h.len, h.cap, h.fits, h.place.imp (by omega) id, h.inside, Nat.le_trans ht h.top, h.all, fun k hk => ?_⟩
  rw [h.keep k (by omega), hf k hk]

theorem VMove.alloc (m : Mem T) (s' : List T) (c : Nat) (h : s'.length ≤ c) :
    VMove m (m.alloc (s' ++ List.replicate (c - s'.length) GoZero.zero)) { off := m.top, len := s'.length, cap := c } s' c := by
  refine ⟨rfl, rfl, h, .inl (Nat.le_refl _), by simp; omega, by simp, ?_, ?_⟩
  · rw [Sl.read_fresh _ _ _ _ (by simp; omega), List.take_of_length_le (by simp; omega)]
  · intro k hk
    rw [Mem.alloc_cell, Mem.write_out _ _ _ _ (.inl hk)]

theorem VStep.refl {m : Mem T} {v : Sl} (h : v.WF m) : VStep m v m v (v.read m) :=
  ⟨h, rfl, Nat.le_refl _, .inl ⟨rfl, rfl⟩, fun _ _ _ => rfl, id⟩

/-- Only memory that was not allocated changed. -/
theorem VStep.keep {m m' : Mem T} {v : Sl} (h : v.WF m) (ht : m.top ≤ m'.top) (hf : ∀ k, k < m.top → m'.cell k = m.cell k) :
    VStep m v m' v (v.read m) := by
  obtain ⟨h1, h2⟩ := h
  refine ⟨⟨h1, by omega⟩, Sl.read_congr (fun k _ hk => hf k (by omega)), ht, .inl ⟨rfl, rfl⟩, fun k hk _ => hf k hk, ?_⟩
  intro hc k hk1 hk2
  rw [hf _ (by omega)]
  exact hc k hk1 hk2

theorem VStep.trans {m m1 m2 : Mem T} {v v2 : Sl} {s s2 : List T} (h1 : VStep m v m1 v s) (h2 : VStep m1 v m2 v2 s2) : VStep m v m2 v2 s2 := by
  refine ⟨h2.wf, h2.read, Nat.le_trans h1.top h2.top, ?_, ?_, fun h => h2.clean (h1.clean h)⟩
  · rcases h2.place with h | h | h
    · exact .inl h
    · exact .inr (.inl (Nat.le_trans h1.top h))
    · exact .inr (.inr h)
  · intro k hk hd
    rw [h2.frame k (Nat.lt_of_lt_of_le hk h1.top) hd, h1.frame k hk hd]

/-- A new array. -/
theorem VStep.fresh {m m' : Mem T} {v v' : Sl} {s' : List T} (hwf : v'.WF m') (hr : v'.read m' = s') (ht : m.top ≤ m'.top)
    (hp : m.top ≤ v'.off ∨ v'.cap = 0) (hf : ∀ k, k < m.top → m'.cell k = m.cell k) (hc : Clean m' v') : VStep m v m' v' s' :=
  ⟨hwf, hr, ht, .inr hp, fun k hk _ => hf k hk, fun _ => hc⟩

/-- New contents written over the old ones, followed by zeros up to the old length. -/
theorem VStep.write {m : Mem T} {v : Sl} (h : v.WF m) (s' : List T) (z : Nat) (h1 : s'.length + z ≤ v.cap) (h2 : v.len ≤ s'.length + z) :
    VStep m v (m.write v.off (s' ++ List.replicate z GoZero.zero)) { v with len := s'.length } s' := by
  have hl : (s' ++ List.replicate z (GoZero.zero : T)).length = s'.length + z := by simp
  refine ⟨⟨by simp; omega, h.2⟩, ?_, Nat.le_refl _, .inl ⟨rfl, rfl⟩, fun k _ hk => Mem.write_out _ _ _ _ (by omega), ?_⟩
  · apply List.ext_getElem (by simp)
    intro i hi1 hi2
    rw [Sl.read_getElem, Mem.write_in _ _ _ _ (by simp; omega), List.getElem_append_left hi2]
  · intro hc k hk1 hk2
    simp only at hk1 hk2 ⊢
    by_cases hk : k < s'.length + z
    · rw [Mem.write_in _ _ _ _ (by simp; omega), List.getElem_append_right (by omega)]
      simp
    · rw [Mem.write_out _ _ _ _ (by omega)]
      exact hc k (by omega) hk2

theorem VStep.write0 {m : Mem T} {v : Sl} (h : v.WF m) (s' : List T) (h1 : s'.length ≤ v.cap) (h2 : v.len ≤ s'.length) :
    VStep m v (m.write v.off s') { v with len := s'.length } s' := by
  simpa using VStep.write h s' 0 (by simpa using h1) (by simpa using h2)

omit [GoZero T] in
theorem VS.on_ok {α : Type} {x : GoM (Mem T) α} {m m' : Mem T} {a : α} {v : Sl} (h : x m = .ok a m') : VS.on x ⟨m, v⟩ = .ok a ⟨m', v⟩ := by
  simp [VS.on, h]

omit [GoZero T] in
theorem VS.on_panic {α : Type} {x : GoM (Mem T) α} {m m' : Mem T} {v : Sl} (h : x m = .panic m') : VS.on x ⟨m, v⟩ = .panic ⟨m', v⟩ := by
  simp [VS.on, h]

omit [GoZero T] in
@[simp] theorem VS.recv_apply (m : Mem T) (v : Sl) : VS.recv ⟨m, v⟩ = .ok v ⟨m, v⟩ := rfl
omit [GoZero T] in
@[simp] theorem VS.assign_apply (m : Mem T) (v w : Sl) : VS.assign w ⟨m, v⟩ = .ok () ⟨m, w⟩ := rfl

/-! ## append -/

theorem Sl.append_step (grow : Nat → Nat → Nat) (v : Sl) (ys : List T) (m : Mem T) (h : v.WF m) :
    ∃ v' m', v.append grow ys m = .ok v' m' ∧ VStep m v m' v' (v.read m ++ ys)
      ∧ (v.len + ys.length ≤ v.cap → v' = { v with len := v.len + ys.length } ∧ m' = m.write v.off (v.read m ++ ys))
      ∧ (v.cap < v.len + ys.length → m.top ≤ v'.off ∧ ∀ k, k < m.top → m'.cell k = m.cell k) := by
  by_cases hc : v.len + ys.length ≤ v.cap
  · refine ⟨{ v with len := v.len + ys.length }, m.write v.off (v.read m ++ ys), ?_, ?_, fun _ => ⟨rfl, rfl⟩, fun h => by omega⟩
    · unfold Sl.append
      simp only [if_pos hc]
      have := Mem.write_append m v.off (v.read m) ys
      rw [Sl.write_read] at this
      simp only [Sl.read_length] at this
      rw [this]
    · have := VStep.write0 h (v.read m ++ ys) (by simpa using hc) (by simp)
      simpa using this
  · obtain ⟨v', m', e, g, hl, _⟩ := Sl.append_spec grow v ys m h
    have hoff : m.top ≤ v'.off := by
      rcases g.place with ⟨_, p⟩ | p
      · have := g.wf.1; omega
      · exact p
    refine ⟨v', m', e, VStep.fresh g.wf g.read g.top (.inl hoff) (g.prefix_ hoff) ?_, fun h => absurd h hc, fun _ => ⟨hoff, g.prefix_ hoff⟩⟩
    unfold Sl.append at e
    simp only [if_neg hc] at e
    cases e
    intro k hk1 hk2
    simp only at hk1 hk2 ⊢
    rw [Mem.alloc_cell, Mem.write_in _ _ _ _ (by simp; omega), List.getElem_append_right (by simpa using hk1)]
    simp

theorem Vec.pushBack_step (grow : Nat → Nat → Nat) (x : T) {m : Mem T} {v : Sl} (h : v.WF m) :
    ∃ m' v', Vec.pushBack grow x ⟨m, v⟩ = .ok () ⟨m', v'⟩ ∧ VStep m v m' v' (v.read m ++ [x]) := by
  obtain ⟨v', m', e, s, _⟩ := Sl.append_step grow v [x] m h
  exact ⟨m', v', by simp [Vec.pushBack, GoM.bind_def, VS.on_ok e], s⟩

theorem Vec.append_step (grow : Nat → Nat → Nat) (x : Sl) {m : Mem T} {v : Sl} (h : v.WF m) :
    ∃ m' v', Vec.append grow x ⟨m, v⟩ = .ok () ⟨m', v'⟩ ∧ VStep m v m' v' (v.read m ++ x.read m)
      ∧ (v.cap < v.len + x.len → m.top ≤ v'.off) := by
  obtain ⟨v', m', e, s, _, hn⟩ := Sl.append_step grow v (x.read m) m h
  have el : x.load m = .ok (x.read m) m := rfl
  exact ⟨m', v', by simp [Vec.append, GoM.bind_def, VS.on_ok e, VS.on_ok el], s, fun h => (hn (by simpa using h)).1⟩

/-! ## Clear, Reserve, Shrink, constructors -/

theorem Vec.clear_step {m : Mem T} {v : Sl} (h : v.WF m) :
    ∃ m', Vec.clear ⟨m, v⟩ = .ok () ⟨m', { v with len := 0 }⟩ ∧ VStep m v m' { v with len := 0 } [] ∧ VStay m v m' { v with len := 0 } [] := by
  have e : fillZero v m = .ok () (m.write v.off (List.replicate v.len GoZero.zero)) := rfl
  have e2 := Sl.slice_zero v (m.write v.off (List.replicate v.len GoZero.zero)) 0 (Nat.zero_le _)
  simp only [Int.natCast_zero] at e2
  refine ⟨_, by simp [Vec.clear, GoM.bind_def, VS.on_ok e, VS.on_ok e2]; rfl, ?_⟩
  have := VStep.write h [] v.len (by simpa using h.1) (by simp)
  have h2 := VStay.write (m := m) (v := v) [] (by simp)
  simp only [List.nil_append, List.length_nil, Nat.sub_zero] at this h2
  exact ⟨this, h2⟩

theorem Vec.reserve_step (l : Int) {m : Mem T} {v : Sl} (h : v.WF m) :
    ∃ m' v', Vec.reserve l ⟨m, v⟩ = .ok () ⟨m', v'⟩ ∧ VStep m v m' v' (v.read m) ∧ v'.len = v.len
      ∧ (l ≤ v.cap → v' = v ∧ m' = m) ∧ ((v.cap : Int) < l → (v'.cap : Int) = l) ∧ ((v.cap : Int) < l → VMove m m' v' (v.read m) l.toNat) := by
  by_cases hc : (v.cap : Int) < l
  · obtain ⟨n, rfl⟩ : ∃ n : Nat, l = n := ⟨l.toNat, by omega⟩
    have h1 := h.1
    have e1 := Sl.make_ok (T := T) v.len n (by omega) m
    have hF := Fresh.make m v.len n (by omega)
    generalize hm1 : m.alloc (List.replicate n GoZero.zero) = m1 at e1 hF
    let t : Sl := { off := m.top, len := v.len, cap := n }
    have e2 : t.copy v m1 = .ok () (m1.write m.top (v.read m)) := by
      simp only [Sl.copy, t]
      rw [hF.read_old h, List.take_of_length_le (by simp)]
    refine ⟨m1.write m.top (v.read m), t, ?_, ?_, rfl, fun hle => by omega, fun _ => rfl, fun _ => ?_⟩
    · simp only [Vec.reserve, GoM.bind_def, VS.recv_apply]
      rw [if_pos hc]
      simp only [GoM.bind_def, VS.on_ok e1]
      rw [VS.on_ok e2]
      rfl
    · refine VStep.fresh hF.wf (Sl.read_write_self m1 t _ (by simp [t])) hF.top (.inl (Nat.le_refl _)) ?_ ?_
      · intro k hk
        rw [Mem.write_out _ _ _ _ (.inl hk), hF.keep k hk]
      · intro k hk1 hk2
        simp only [t] at hk1 hk2 ⊢
        rw [Mem.write_out _ _ _ _ (.inr (by simp; omega)), ← hm1, Mem.alloc_cell, Mem.write_in _ _ _ _ (by simpa using hk2)]
        simp
    · have hz : m1.write m.top (v.read m) = m.alloc (v.read m ++ List.replicate (n - (v.read m).length) GoZero.zero) := by
        rw [← hm1]
        refine Mem.ext' (fun k => ?_) (by simp; omega)
        have := Mem.write_sub m m.top (List.replicate n (GoZero.zero : T)) (v.read m) 0 (by simp; omega)
        simp only [Nat.add_zero, List.take_zero, List.nil_append, List.drop_replicate, Nat.zero_add] at this
        rw [Mem.alloc_cell, ← this]
        rfl
      rw [hz]
      have := VMove.alloc m (v.read m) n (by simp; omega)
      simpa [t] using this
  · refine ⟨m, v, ?_, VStep.refl h, rfl, fun _ => ⟨rfl, rfl⟩, fun hlt => absurd hlt hc, fun hlt => absurd hlt hc⟩
    simp only [Vec.reserve, GoM.bind_def, VS.recv_apply]
    rw [if_neg hc]
    rfl

theorem Vec.shrink_step (grow : Nat → Nat → Nat) {m : Mem T} {v : Sl} (h : v.WF m) :
    ∃ m' v', Vec.shrink grow ⟨m, v⟩ = .ok () ⟨m', v'⟩ ∧ VStep m v m' v' (v.read m)
      ∧ (v'.cap = if v.len < v.cap ∧ 0 < v.len then max v.len (grow 0 v.len) else v.len) := by
  have h1 := h.1
  by_cases hc : v.cap > v.len
  · have el : v.load m = .ok (v.read m) m := rfl
    obtain ⟨v', m', e, s, hin, hout⟩ := Sl.append_step grow Sl.empty (v.read m) m (Fresh.nil m).wf
    refine ⟨m', v', ?_, ?_, ?_⟩
    · simp only [Vec.shrink, GoM.bind_def, VS.recv_apply]
      rw [if_pos hc]
      simp [GoM.bind_def, VS.on_ok el, VS.on_ok e]
    · have hr : v'.read m' = v.read m := by rw [s.read]; simp [Sl.read, Sl.empty]
      refine VStep.fresh s.wf hr s.top ?_ ?_ (s.clean (fun k _ hk => absurd hk (by simp [Sl.empty])))
      · rcases s.place with ⟨_, p⟩ | p
        · exact .inr p
        · exact p
      · intro k hk
        exact s.frame k hk (.inr (by simp [Sl.empty]))
    · by_cases h0 : 0 < v.len
      · rw [if_pos ⟨hc, h0⟩]
        unfold Sl.append at e
        simp only [Sl.empty, Sl.read_length] at e
        rw [if_neg (by omega)] at e
        cases e
        simp
      · rw [if_neg (by omega), (hin (by simp [Sl.empty]; omega)).1]
        simp [Sl.empty]; omega
  · refine ⟨m, v, ?_, VStep.refl h, ?_⟩
    · simp only [Vec.shrink, GoM.bind_def, VS.recv_apply]
      rw [if_neg hc]; rfl
    · rw [if_neg (by omega)]; omega

theorem Vec.make_step {m : Mem T} {v : Sl} : Vec.make ⟨m, v⟩ = .ok () ⟨m, Sl.empty⟩ ∧ VStep m v m Sl.empty [] :=
  ⟨rfl, VStep.fresh (Fresh.nil m).wf rfl (Nat.le_refl _) (.inr rfl) (fun _ _ => rfl) (fun k _ hk => absurd hk (by simp [Sl.empty]))⟩

theorem Vec.makeCap_step (c : Nat) {m : Mem T} {v : Sl} :
    ∃ m' v', Vec.makeCap c ⟨m, v⟩ = .ok () ⟨m', v'⟩ ∧ VStep m v m' v' [] ∧ v'.cap = c := by
  have e1 := Sl.make_ok (T := T) 0 c (by omega) m
  have hF := Fresh.make m 0 c (by omega)
  refine ⟨_, _, by simp only [Int.natCast_zero] at e1; simp [Vec.makeCap, GoM.bind_def, VS.on_ok e1]; exact ⟨rfl, rfl⟩, ?_, rfl⟩
  refine VStep.fresh hF.wf (by simp [Sl.read]) hF.top (.inl (Nat.le_refl _)) hF.keep ?_
  intro k hk1 hk2
  simp only at hk2 ⊢
  rw [Mem.alloc_cell, Mem.write_in _ _ _ _ (by simpa using hk2)]
  simp

theorem Vec.makeCap_panic (c : Int) (hc : c < 0) {m : Mem T} {v : Sl} : Vec.makeCap c ⟨m, v⟩ = .panic ⟨m, v⟩ := by
  have : Sl.make (T := T) 0 c m = .panic m := by unfold Sl.make; rw [if_neg (by omega)]
  simp [Vec.makeCap, GoM.bind_def, VS.on_panic this]

omit [GoZero T] in
theorem Sl.lit_fresh (xs : List T) (m : Mem T) :
    ∃ x m', Sl.lit xs m = .ok x m' ∧ Fresh m m' x ∧ m.top ≤ x.off ∧ x.read m' = xs ∧ x.len = xs.length ∧ x.cap = xs.length := by
  refine ⟨_, _, rfl, ⟨⟨Nat.le_refl _, by simp⟩, by simp, ?_, .inl (Nat.le_refl _)⟩, Nat.le_refl _, ?_, rfl, rfl⟩
  · intro k hk
    rw [Mem.alloc_cell, Mem.write_out _ _ _ _ (.inl hk)]
  · rw [Sl.read_fresh _ _ _ _ (Nat.le_refl _)]; simp

theorem Vec.of_step (xs : List T) {m : Mem T} {v : Sl} :
    ∃ m' v', Vec.of xs ⟨m, v⟩ = .ok () ⟨m', v'⟩ ∧ VStep m v m' v' xs ∧ VMove m m' v' xs xs.length := by
  obtain ⟨x, m', e, hF, ho, hr, hl, hc⟩ := Sl.lit_fresh xs m
  refine ⟨m', x, by simp [Vec.of, GoM.bind_def, VS.on_ok e], VStep.fresh hF.wf hr hF.top (.inl ho) hF.keep ?_,
    ⟨hl, hc, Nat.le_refl _, .inl ho, by rw [← hc]; exact hF.wf.2, hF.top, ?_, hF.keep⟩⟩
  · intro k hk1 hk2; omega
  · have : { x with len := xs.length } = x := by rw [← hl]
    rw [this, hr]
    simp

/-! ## Single elements -/

omit [GoZero T] in
theorem Vec.at_ok (i : Nat) {m : Mem T} {v : Sl} (hi : i < (v.read m).length) : Vec.at (i : Int) ⟨m, v⟩ = .ok (v.read m)[i] ⟨m, v⟩ := by
  simp [Vec.at, GoM.bind_def, VS.on_ok (Sl.get_ok v m i (by simpa using hi))]

omit [GoZero T] in
theorem Vec.at_panic (i : Int) {m : Mem T} {v : Sl} (hi : ¬ (0 ≤ i ∧ i < v.len)) : Vec.at i ⟨m, v⟩ = .panic ⟨m, v⟩ := by
  simp [Vec.at, GoM.bind_def, VS.on_panic (Sl.get_panic v m i hi)]

theorem Vec.set_step (i : Nat) (x : T) {m : Mem T} {v : Sl} (h : v.WF m) (hi : i < v.len) :
    ∃ m', Vec.set (i : Int) x ⟨m, v⟩ = .ok () ⟨m', v⟩ ∧ VStep m v m' v ((v.read m).set i x) ∧ VStay m v m' v ((v.read m).set i x) := by
  refine ⟨_, by simp [Vec.set, GoM.bind_def, VS.on_ok (Sl.put_ok v m i x hi)]; rfl, ?_⟩
  have := VStep.write0 h ((v.read m).set i x) (by simpa using h.1) (by simp)
  have h2 := VStay.write (m := m) (v := v) ((v.read m).set i x) (by simpa using h.1)
  exact ⟨by simpa using this, by simpa using h2⟩

omit [GoZero T] in
theorem Vec.set_panic (i : Int) (x : T) {m : Mem T} {v : Sl} (hi : ¬ (0 ≤ i ∧ i < v.len)) : Vec.set i x ⟨m, v⟩ = .panic ⟨m, v⟩ := by
  simp [Vec.set, GoM.bind_def, VS.on_panic (Sl.put_panic v m i x hi)]

omit [GoZero T] in
theorem Sl.last_split (m : Mem T) (v : Sl) (h : 0 < v.len) : ∃ s x, v.read m = s ++ [x] ∧ s.length = v.len - 1 ∧ v.get ((v.len : Int) - 1) m = .ok x m := by
  obtain ⟨s, x, e⟩ : ∃ s x, v.read m = s ++ [x] := by
    refine ⟨(v.read m).dropLast, (v.read m).getLast (List.ne_nil_of_length_pos (by simpa using h)), ?_⟩
    exact (List.dropLast_concat_getLast _).symm
  have hl : v.len = s.length + 1 := by rw [← Sl.read_length m v, e]; simp
  refine ⟨s, x, e, by omega, ?_⟩
  rw [show ((v.len : Int) - 1) = ((s.length : Nat) : Int) by omega, Sl.get_ok _ _ _ (by omega)]
  simp [e]

theorem Vec.popBack_step {m : Mem T} {v : Sl} (h : v.WF m) (h0 : 0 < v.len) :
    ∃ m' v' s x, v.read m = s ++ [x] ∧ Vec.popBack ⟨m, v⟩ = .ok x ⟨m', v'⟩ ∧ VStep m v m' v' s ∧ VStay m v m' v' s := by
  obtain ⟨s, x, e, hl, hg⟩ := Sl.last_split m v h0
  have h1 := h.1
  have hp := Sl.put_ok v m s.length (GoZero.zero : T) (by omega)
  rw [show ((s.length : Nat) : Int) = (v.len : Int) - 1 by omega] at hp
  have hset : (v.read m).set s.length GoZero.zero = s ++ [GoZero.zero] := by simp [e]
  rw [hset] at hp
  have hs := Sl.slice_zero v (m.write v.off (s ++ [GoZero.zero])) s.length (by omega)
  rw [show ((s.length : Nat) : Int) = (v.len : Int) - 1 by omega] at hs
  have st := VStay.write (m := m) (v := v) s (by omega)
  rw [show v.len - s.length = 1 by omega] at st
  refine ⟨_, { v with len := s.length }, s, x, e, ?_, VStep.write h s 1 (by omega) (by omega), st⟩
  simp [Vec.popBack, GoM.bind_def, VS.on_ok hg, VS.on_ok hp, VS.on_ok hs]

theorem Vec.popBack_panic {m : Mem T} {v : Sl} (h0 : v.len = 0) : Vec.popBack ⟨m, v⟩ = .panic ⟨m, v⟩ := by
  simp [Vec.popBack, GoM.bind_def, VS.on_panic (Sl.get_panic v m ((v.len : Int) - 1) (by omega))]

omit [GoZero T] in
theorem Vec.back_panic {m : Mem T} {v : Sl} (h0 : v.len = 0) : Vec.back ⟨m, v⟩ = .panic ⟨m, v⟩ := by
  simp [Vec.back, GoM.bind_def, VS.on_panic (Sl.get_panic v m ((v.len : Int) - 1) (by omega))]

/-! ## RemoveRange -/

theorem Vec.removeRange_step (grow : Nat → Nat → Nat) (i j : Nat) {m : Mem T} {v : Sl} (h : v.WF m) (hij : i ≤ j) (hj : j ≤ v.len) :
    ∃ m' v', Vec.removeRange grow (i : Int) (j : Int) ⟨m, v⟩ = .ok () ⟨m', v'⟩ ∧ VStep m v m' v' ((v.read m).take i ++ (v.read m).drop j)
      ∧ VStay m v m' v' ((v.read m).take i ++ (v.read m).drop j) := by
  have h1 := h.1
  generalize hs : v.read m = s
  have hsl : s.length = v.len := by rw [← hs]; simp
  have ea := Sl.slice_zero v m i (by omega)
  have eb := Sl.slice_ok v m j v.len hj h1
  have el : Sl.load { off := v.off + j, len := v.len - j, cap := v.cap - j } m = .ok (s.drop j) m := by
    unfold Sl.load
    rw [Sl.read_sub m v j (v.len - j) _ (by omega), hs, List.take_of_length_le (by simp; omega)]
  have ra : Sl.read m { v with len := i } = s.take i := by
    have := Sl.read_sub m v 0 i v.cap (by omega)
    rw [hs] at this
    simpa using this
  have hn : (s.take i ++ s.drop j).length = i + (v.len - j) := by simp; omega
  obtain ⟨t, m1, e, _, hin, _⟩ := Sl.append_step grow { v with len := i } (s.drop j) m ⟨by simp; omega, h.2⟩
  obtain ⟨q1, q2⟩ := hin (by simp; omega)
  rw [ra] at q2
  simp only at q1 q2
  have htl : t.len = i + (v.len - j) := by rw [q1]; simp; omega
  have er := Sl.slice_ok v m1 t.len v.len (by omega) h1
  have ec : fillZero { off := v.off + t.len, len := v.len - t.len, cap := v.cap - t.len } m1
      = .ok () (m.write v.off (s.take i ++ s.drop j ++ List.replicate (j - i) GoZero.zero)) := by
    unfold fillZero Sl.clear
    congr 1
    rw [q2]
    simp only
    have := Mem.write_append m v.off (s.take i ++ s.drop j) (List.replicate (j - i) (GoZero.zero : T))
    rw [hn] at this
    rw [htl, ← this]
    congr 2
    omega
  refine ⟨m.write v.off (s.take i ++ s.drop j ++ List.replicate (j - i) GoZero.zero), t, ?_, ?_⟩
  · simp only [Vec.removeRange, GoM.bind_def, VS.recv_apply, VS.on_ok ea, VS.on_ok eb, VS.on_ok el, VS.on_ok e, VS.assign_apply, VS.on_ok er]
    exact VS.on_ok ec
  · have hv : t = { v with len := (s.take i ++ s.drop j).length } := by rw [q1, hn]; simp; omega
    have st := VStay.write (m := m) (v := v) (s.take i ++ s.drop j) (by omega)
    rw [show v.len - (s.take i ++ s.drop j).length = j - i by omega] at st
    rw [hv]
    exact ⟨VStep.write h _ _ (by omega) (by omega), st⟩

theorem Vec.removeRange_panic (grow : Nat → Nat → Nat) (i j : Int) {m : Mem T} {v : Sl} (hij : i ≤ j) (hn : ¬ (0 ≤ i ∧ j ≤ v.len)) :
    Vec.removeRange grow i j ⟨m, v⟩ = .panic ⟨m, v⟩ := by
  by_cases hi : 0 ≤ i ∧ i ≤ v.cap
  · obtain ⟨n, rfl⟩ : ∃ n : Nat, i = n := ⟨i.toNat, by omega⟩
    have ea := Sl.slice_zero v m n (by omega)
    have eb := Sl.slice_panic v m j v.len (by omega)
    simp [Vec.removeRange, GoM.bind_def, VS.on_ok ea, VS.on_panic eb]
  · simp [Vec.removeRange, GoM.bind_def, VS.on_panic (Sl.slice_panic v m 0 i (by omega))]

/-! ## RemoveIf -/

theorem Vec.removeIf_step (cond : σ → T → σ × Bool) (t : σ) {m : Mem T} {v : Sl} (h : v.WF m) :
    ∃ m' v', Vec.removeIf cond t ⟨m, v⟩ = .ok (rejectS cond t (v.read m)).1 ⟨m', v'⟩ ∧ VStep m v m' v' (rejectS cond t (v.read m)).2
      ∧ VStay m v m' v' (rejectS cond t (v.read m)).2 := by
  obtain ⟨junk, hl, e⟩ := removeIf_eq v cond m t h
  generalize hs : (rejectS cond t (v.read m)).2 = s' at hl e ⊢
  have hl' : v.len = s'.length + junk.length := by simpa using hl
  have h1 := h.1
  have er := Sl.slice_ok v (m.write v.off (s' ++ junk)) s'.length v.len (by omega) h1
  have ec : fillZero { off := v.off + s'.length, len := v.len - s'.length, cap := v.cap - s'.length } (m.write v.off (s' ++ junk))
      = .ok () (m.write v.off (s' ++ List.replicate junk.length GoZero.zero)) := by
    unfold fillZero Sl.clear
    congr 1
    simp only
    rw [Mem.write_sub _ _ _ _ _ (by simp; omega)]
    congr 1
    rw [List.drop_of_length_le (by simp; omega)]
    simp; omega
  have st := VStay.write (m := m) (v := v) s' (by omega)
  rw [show v.len - s'.length = junk.length by omega] at st
  refine ⟨_, { v with len := s'.length }, ?_, VStep.write h s' junk.length (by omega) (by omega), st⟩
  simp only [Vec.removeIf, GoM.bind_def, VS.recv_apply, VS.on_ok e, VS.assign_apply, VS.on_ok er]
  rw [VS.on_ok ec]
  rfl

/-! ## Insert -/

omit [GoZero T] in
theorem Mem.write_before (m : Mem T) (o : Nat) (xs ys : List T) : (m.write (o + xs.length) ys).write o xs = m.write o (xs ++ ys) := by
  rw [← Mem.write_append]
  refine Mem.ext' ?_ rfl
  intro k
  by_cases h1 : o ≤ k ∧ k < o + xs.length
  · obtain ⟨i, rfl⟩ : ∃ i, k = o + i := ⟨k - o, by omega⟩
    rw [Mem.write_in _ _ _ i (by omega), Mem.write_out _ _ _ _ (by omega), Mem.write_in _ _ _ i (by omega)]
  · rw [Mem.write_out _ _ _ _ (by omega)]
    by_cases h2 : o + xs.length ≤ k ∧ k < o + xs.length + ys.length
    · obtain ⟨i, rfl⟩ : ∃ i, k = o + xs.length + i := ⟨k - (o + xs.length), by omega⟩
      rw [Mem.write_in _ _ _ i (by omega), Mem.write_in _ _ _ i (by omega)]
    · rw [Mem.write_out _ _ _ _ (by omega), Mem.write_out _ _ _ _ (by omega), Mem.write_out _ _ _ _ (by omega)]

/-- The exact effect of `Insert` in place: `x` is read after the tail has moved. -/
theorem Vec.insert_inPlace (i : Nat) (x : Sl) {m : Mem T} {v : Sl} (h : v.WF m) (hi : i ≤ v.len) (hc : v.len + x.len ≤ v.cap) :
    Vec.insert (i : Int) x ⟨m, v⟩ = .ok ()
      ⟨m.write v.off ((v.read m).take i ++ x.read (m.write (v.off + i + x.len) ((v.read m).drop i)) ++ (v.read m).drop i), { v with len := v.len + x.len }⟩ := by
  have h1 := h.1
  generalize hs : v.read m = s
  have hsl : s.length = v.len := by rw [← hs]; simp
  have e1 := Sl.slice_zero v m (v.len + x.len) hc
  have e2 := Sl.slice_ok { v with len := v.len + x.len } m (i + x.len) (v.len + x.len) (by omega) hc
  have e3 := Sl.slice_ok v m i v.len hi h1
  simp only at e2
  have e4 : Sl.copy { off := v.off + (i + x.len), len := v.len + x.len - (i + x.len), cap := v.cap - (i + x.len) }
      { off := v.off + i, len := v.len - i, cap := v.cap - i } m = .ok () (m.write (v.off + i + x.len) (s.drop i)) := by
    unfold Sl.copy
    rw [Sl.read_sub m v i (v.len - i) _ (by omega), hs]
    simp only
    rw [List.take_of_length_le (by simp; omega), List.take_of_length_le (by simp; omega), Nat.add_assoc]
  generalize hm1 : m.write (v.off + i + x.len) (s.drop i) = m1 at e4 ⊢
  have e5 := Sl.slice_ok { v with len := v.len + x.len } m1 i (v.len + x.len) (by omega) hc
  simp only at e5
  have e6 : Sl.copy { off := v.off + i, len := v.len + x.len - i, cap := v.cap - i } x m1
      = .ok () (m.write v.off (s.take i ++ x.read m1 ++ s.drop i)) := by
    unfold Sl.copy
    congr 1
    simp only
    rw [List.take_of_length_le (by simp; omega)]
    have hb := Mem.write_before m (v.off + i) (x.read m1) (s.drop i)
    rw [Sl.read_length, hm1] at hb
    rw [hb]
    have hw : m.write v.off (s.take i) = m := by
      have hra := Sl.read_sub m v 0 i v.cap (by omega)
      rw [hs] at hra
      simp at hra
      have := Sl.write_read m { v with len := i }
      rw [hra] at this
      exact this
    have ha := Mem.write_append m v.off (s.take i) (x.read m1 ++ s.drop i)
    rw [hw, List.length_take, Nat.min_eq_left (by omega)] at ha
    rw [ha, List.append_assoc]
  simp only [Vec.insert, GoM.bind_def, VS.recv_apply]
  rw [if_pos hc]
  rw [show ((i + x.len : Nat) : Int) = (i : Int) + x.len by omega] at e2
  simp only [GoM.bind_def, VS.on_ok e1, VS.on_ok e2, VS.on_ok e3]
  rw [VS.on_ok e4]
  simp only [VS.on_ok e5]
  rw [VS.on_ok e6]
  rfl

/-- `Insert` into a new array never reads what it has written. -/
theorem Vec.insert_grow (i : Nat) (x : Sl) {m : Mem T} {v : Sl} (h : v.WF m) (hx : x.WF m) (hi : i ≤ v.len) (hc : v.cap < v.len + x.len) :
    ∃ m' v', Vec.insert (i : Int) x ⟨m, v⟩ = .ok () ⟨m', v'⟩ ∧ VStep m v m' v' ((v.read m).take i ++ x.read m ++ (v.read m).drop i)
      ∧ m.top ≤ v'.off ∧ VMove m m' v' ((v.read m).take i ++ x.read m ++ (v.read m).drop i) (v.len + x.len) := by
  have h1 := h.1
  generalize hs : v.read m = s
  have hsl : s.length = v.len := by rw [← hs]; simp
  have e1 := Sl.make_ok (T := T) (v.len + x.len) (v.len + x.len) (Nat.le_refl _) m
  have hF := Fresh.make m (v.len + x.len) (v.len + x.len) (Nat.le_refl _)
  generalize hm1 : m.alloc (List.replicate (v.len + x.len) GoZero.zero) = m1 at e1 hF
  have old : ∀ (a : Sl) (o : Nat) (ys : List T) (m2 : Mem T), a.WF m → a.read m2 = a.read m → m.top ≤ o → a.read (m2.write o ys) = a.read m := by
    intro a o ys m2 ha h2 ho
    rw [Sl.read_write_disjoint _ _ _ _ (.inl (by have := ha.1; have := ha.2; omega)), h2]
  have hv1 := hF.read_old h
  have hx1 := hF.read_old hx
  rw [hs] at hv1
  have e2 := Sl.slice_zero v m1 i (by omega)
  have e3 : Sl.copy { off := m.top, len := v.len + x.len, cap := v.len + x.len } { v with len := i } m1 = .ok () (m1.write m.top (s.take i)) := by
    unfold Sl.copy
    have hra := Sl.read_sub m1 v 0 i v.cap (by omega)
    rw [hv1] at hra
    simp at hra
    rw [hra, List.take_of_length_le (by simp; omega)]
  have hx2 := old x m.top (s.take i) m1 hx hx1 (Nat.le_refl _)
  have hv2 := old v m.top (s.take i) m1 h (by rw [hv1, hs]) (Nat.le_refl _)
  generalize hm2 : m1.write m.top (s.take i) = m2 at e3 hx2 hv2
  have e4 := Sl.slice_ok { off := m.top, len := v.len + x.len, cap := v.len + x.len } m2 i (v.len + x.len) (by omega) (Nat.le_refl _)
  have e5 : Sl.copy { off := m.top + i, len := v.len + x.len - i, cap := v.len + x.len - i } x m2 = .ok () (m1.write m.top (s.take i ++ x.read m)) := by
    unfold Sl.copy
    rw [hx2, List.take_of_length_le (by simp; omega)]
    have := Mem.write_append m1 m.top (s.take i) (x.read m)
    rw [hm2, List.length_take, Nat.min_eq_left (by omega)] at this
    rw [← this]
  have hv3 := old v m.top (s.take i ++ x.read m) m1 h (by rw [hv1, hs]) (Nat.le_refl _)
  generalize hm3 : m1.write m.top (s.take i ++ x.read m) = m3 at e5 hv3
  have e6 := Sl.slice_ok { off := m.top, len := v.len + x.len, cap := v.len + x.len } m3 (i + x.len) (v.len + x.len) (by omega) (Nat.le_refl _)
  have e7 := Sl.slice_ok v m3 i v.len hi h1
  have e8 : Sl.copy { off := m.top + (i + x.len), len := v.len + x.len - (i + x.len), cap := v.len + x.len - (i + x.len) }
      { off := v.off + i, len := v.len - i, cap := v.cap - i } m3 = .ok () (m1.write m.top (s.take i ++ x.read m ++ s.drop i)) := by
    unfold Sl.copy
    rw [Sl.read_sub m3 v i (v.len - i) _ (by omega), hv3, hs]
    simp only
    rw [List.take_of_length_le (by simp; omega), List.take_of_length_le (by simp; omega)]
    have := Mem.write_append m1 m.top (s.take i ++ x.read m) (s.drop i)
    rw [hm3] at this
    rw [← this]
    congr 2
    simp; omega
  refine ⟨m1.write m.top (s.take i ++ x.read m ++ s.drop i), { off := m.top, len := v.len + x.len, cap := v.len + x.len }, ?_, ?_, Nat.le_refl _,
    ⟨by simp; omega, rfl, by simp; omega, .inl (Nat.le_refl _), hF.wf.2, hF.top, ?_, ?_⟩⟩
  · simp only [Vec.insert, GoM.bind_def, VS.recv_apply]
    rw [if_neg (by omega)]
    rw [show ((i + x.len : Nat) : Int) = (i : Int) + x.len by omega] at e6
    simp only at e4 e6
    simp only [GoM.bind_def, VS.on_ok e1, VS.on_ok e2]
    rw [VS.on_ok e3]
    simp only [VS.on_ok e4]
    rw [VS.on_ok e5]
    simp only [VS.on_ok e6, VS.on_ok e7]
    rw [VS.on_ok e8]
    rfl
  · refine VStep.fresh hF.wf ?_ hF.top (.inl (Nat.le_refl _)) ?_ (fun k hk1 hk2 => by simp only at hk1 hk2; omega)
    · exact Sl.read_write_self m1 { off := m.top, len := v.len + x.len, cap := v.len + x.len } _ (by simp; omega)
    · intro k hk
      rw [Mem.write_out _ _ _ _ (.inl hk), hF.keep k hk]
  · have := Sl.read_write_self m1 { off := m.top, len := v.len + x.len, cap := v.len + x.len } (s.take i ++ x.read m ++ s.drop i) (by simp; omega)
    simp only at this
    rw [this, show v.len + x.len - (s.take i ++ x.read m ++ s.drop i).length = 0 by simp; omega]
    simp
  · intro k hk
    rw [Mem.write_out _ _ _ _ (.inl hk), hF.keep k hk]

theorem Vec.insert_step (i : Nat) (x : Sl) {m : Mem T} {v : Sl} (h : v.WF m) (hx : x.WF m) (hi : i ≤ v.len)
    (hov : v.len + x.len ≤ v.cap → x.off ≤ v.off + i ∨ v.off + v.len + x.len ≤ x.off) :
    ∃ m' v', Vec.insert (i : Int) x ⟨m, v⟩ = .ok () ⟨m', v'⟩ ∧ VStep m v m' v' ((v.read m).take i ++ x.read m ++ (v.read m).drop i)
      ∧ (v.len + x.len ≤ v.cap → VStay m v m' v' ((v.read m).take i ++ x.read m ++ (v.read m).drop i)) := by
  by_cases hc : v.len + x.len ≤ v.cap
  · have e := Vec.insert_inPlace i x h hi hc
    have hr : x.read (m.write (v.off + i + x.len) ((v.read m).drop i)) = x.read m := by
      apply Sl.read_write_disjoint
      have := hov hc
      simp
      omega
    rw [hr] at e
    refine ⟨_, _, e, ?_⟩
    have := VStep.write0 h ((v.read m).take i ++ x.read m ++ (v.read m).drop i) (by simp; omega) (by simp; omega)
    have hl : ((v.read m).take i ++ x.read m ++ (v.read m).drop i).length = v.len + x.len := by simp; omega
    have h2 := VStay.write (m := m) (v := v) ((v.read m).take i ++ x.read m ++ (v.read m).drop i) (by rw [hl]; exact hc)
    rw [hl, show v.len - (v.len + x.len) = 0 by omega] at h2
    rw [hl] at this
    exact ⟨this, fun _ => by simpa using h2⟩
  · obtain ⟨m', v', e, s, _⟩ := Vec.insert_grow i x h hx hi (by omega)
    exact ⟨m', v', e, s, fun h => absurd h hc⟩

theorem Vec.insert_panic (i : Int) (x : Sl) {m : Mem T} {v : Sl} (h : v.WF m) (hi : ¬ (0 ≤ i ∧ i ≤ v.len)) :
    ∃ m', Vec.insert i x ⟨m, v⟩ = .panic ⟨m', v⟩ ∧ VStep m v m' v (v.read m) ∧ (∀ k, k < m.top → m'.cell k = m.cell k) := by
  have h1 := h.1
  by_cases hc : v.len + x.len ≤ v.cap
  · refine ⟨m, ?_, VStep.refl h, fun _ _ => rfl⟩
    have e1 := Sl.slice_zero v m (v.len + x.len) hc
    simp only [Vec.insert, GoM.bind_def, VS.recv_apply]
    rw [if_pos hc]
    simp only [GoM.bind_def, VS.on_ok e1]
    by_cases hd : 0 ≤ i + x.len ∧ i + x.len ≤ ((v.len + x.len : Nat) : Int)
    · obtain ⟨n, hn⟩ : ∃ n : Nat, i + x.len = n := ⟨(i + x.len).toNat, by omega⟩
      have e2 := Sl.slice_ok { v with len := v.len + x.len } m n (v.len + x.len) (by omega) hc
      rw [hn]
      simp only at e2
      simp only [VS.on_ok e2, VS.on_panic (Sl.slice_panic v m i v.len (by omega))]
    · rw [VS.on_panic (Sl.slice_panic { v with len := v.len + x.len } m (i + x.len) (v.len + x.len : Nat) (by omega))]
  · have e1 := Sl.make_ok (T := T) (v.len + x.len) (v.len + x.len) (Nat.le_refl _) m
    have hF := Fresh.make m (v.len + x.len) (v.len + x.len) (Nat.le_refl _)
    generalize hm1 : m.alloc (List.replicate (v.len + x.len) GoZero.zero) = m1 at e1 hF
    have done : ∀ m2 : Mem T, m.top ≤ m2.top → (∀ k, k < m.top → m2.cell k = m.cell k) → Vec.insert i x ⟨m, v⟩ = .panic ⟨m2, v⟩ →
        ∃ m', Vec.insert i x ⟨m, v⟩ = .panic ⟨m', v⟩ ∧ VStep m v m' v (v.read m) ∧ (∀ k, k < m.top → m'.cell k = m.cell k) :=
      fun m2 ht hk e => ⟨m2, e, VStep.keep h ht hk, hk⟩
    by_cases h2 : 0 ≤ i ∧ i ≤ v.cap
    · obtain ⟨n, rfl⟩ : ∃ n : Nat, i = n := ⟨i.toNat, by omega⟩
      have e2 := Sl.slice_zero v m1 n (by omega)
      have e4 := fun m2 : Mem T => Sl.slice_ok { off := m.top, len := v.len + x.len, cap := v.len + x.len } m2 n (v.len + x.len) (by omega) (Nat.le_refl _)
      have e5 := fun m2 : Mem T => Sl.slice_panic { off := m.top, len := v.len + x.len, cap := v.len + x.len } m2 (n + x.len) (v.len + x.len : Nat) (by omega)
      have e3 : ∀ (d a : Sl) (m2 : Mem T), Sl.copy d a m2 = .ok () (m2.write d.off ((a.read m2).take d.len)) := fun _ _ _ => rfl
      refine done _ ?_ ?_ (by
        simp only [Vec.insert, GoM.bind_def, VS.recv_apply]
        rw [if_neg hc]
        simp only [GoM.bind_def, VS.on_ok e1, VS.on_ok e2]
        rw [VS.on_ok (e3 _ _ _)]
        simp only [VS.on_ok (e4 _)]
        rw [VS.on_ok (e3 _ _ _)]
        simp only [VS.on_panic (e5 _)]
        rfl)
      · exact hF.top
      · intro k hk
        rw [Mem.write_out _ _ _ _ (.inl (by omega)), Mem.write_out _ _ _ _ (.inl (by omega)), hF.keep k hk]
    · refine done m1 hF.top hF.keep ?_
      simp only [Vec.insert, GoM.bind_def, VS.recv_apply]
      rw [if_neg hc]
      simp only [GoM.bind_def, VS.on_ok e1, VS.on_panic (Sl.slice_panic v m1 0 i (by omega))]

end Stl4go
