import Verif.Model.Slice
/-! # Lemmas about slice memory -/
namespace Stl4go
variable {T : Type}

theorem Mem.ext' {m m' : Mem T} (h : ∀ k, m.cell k = m'.cell k) (ht : m.top = m'.top) : m = m' := by
  cases m; cases m'; simp at *; exact ⟨funext h, ht⟩

@[simp] theorem Sl.read_length (m : Mem T) (s : Sl) : (s.read m).length = s.len := by simp [Sl.read]

theorem Sl.read_getElem? (m : Mem T) (s : Sl) (i : Nat) :
    (s.read m)[i]? = if i < s.len then some (m.cell (s.off + i)) else none := by
  unfold Sl.read
  split <;> simp_all

theorem Sl.read_getElem (m : Mem T) (s : Sl) (i : Nat) (h : i < (s.read m).length) :
    (s.read m)[i] = m.cell (s.off + i) := by simp [Sl.read]

@[simp] theorem Mem.write_top (m : Mem T) (o : Nat) (xs : List T) : (m.write o xs).top = m.top := rfl
@[simp] theorem Mem.alloc_top (m : Mem T) (xs : List T) : (m.alloc xs).top = m.top + xs.length := rfl
theorem Mem.alloc_cell (m : Mem T) (xs : List T) (k : Nat) : (m.alloc xs).cell k = (m.write m.top xs).cell k := rfl

theorem Mem.write_in (m : Mem T) (o : Nat) (xs : List T) (i : Nat) (h : i < xs.length) :
    (m.write o xs).cell (o + i) = xs[i] := by simp [Mem.write, h]

theorem Mem.write_out (m : Mem T) (o : Nat) (xs : List T) (k : Nat) (h : k < o ∨ o + xs.length ≤ k) :
    (m.write o xs).cell k = m.cell k := by
  unfold Mem.write
  simp only
  split
  · rw [List.getElem?_eq_none (by omega)]; rfl
  · rfl

theorem Mem.write_cell (m : Mem T) (o : Nat) (xs : List T) (k : Nat) :
    (m.write o xs).cell k = if o ≤ k then xs[k - o]?.getD (m.cell k) else m.cell k := rfl

/-- A slice read back right after its whole contents were written. -/
theorem Sl.read_write_self (m : Mem T) (s : Sl) (xs : List T) (h : xs.length = s.len) :
    s.read (m.write s.off xs) = xs := by
  apply List.ext_getElem (by simp [h])
  intro i h1 h2
  rw [Sl.read_getElem, Mem.write_in _ _ _ _ h2]

/-- Writes outside a slice do not show in it. -/
theorem Sl.read_write_disjoint (m : Mem T) (s : Sl) (o : Nat) (xs : List T)
    (h : s.off + s.len ≤ o ∨ o + xs.length ≤ s.off) : s.read (m.write o xs) = s.read m := by
  apply List.ext_getElem (by simp)
  intro i h1 h2
  simp at h1
  rw [Sl.read_getElem, Sl.read_getElem, Mem.write_out]
  omega

theorem Sl.read_alloc (m : Mem T) (s : Sl) (xs : List T) (h : s.off + s.len ≤ m.top) : s.read (m.alloc xs) = s.read m := by
  show s.read (m.write m.top xs) = _
  exact Sl.read_write_disjoint m s m.top xs (.inl h)

theorem Sl.read_congr {m m' : Mem T} {s : Sl} (h : ∀ k, s.off ≤ k → k < s.off + s.len → m'.cell k = m.cell k) :
    s.read m' = s.read m := by
  apply List.ext_getElem (by simp)
  intro i h1 h2
  simp at h1
  rw [Sl.read_getElem, Sl.read_getElem]
  exact h _ (by omega) (by omega)

@[simp] theorem Mem.write_nil (m : Mem T) (o : Nat) : m.write o [] = m := by
  refine Mem.ext' ?_ rfl
  intro k
  exact Mem.write_out _ _ _ _ (by simp; omega)

theorem Mem.write_write (m : Mem T) (o : Nat) (xs ys : List T) (h : xs.length ≤ ys.length) :
    (m.write o xs).write o ys = m.write o ys := by
  refine Mem.ext' ?_ rfl
  intro k
  by_cases hk : o ≤ k ∧ k < o + ys.length
  · obtain ⟨i, rfl⟩ : ∃ i, k = o + i := ⟨k - o, by omega⟩
    rw [Mem.write_in _ _ _ i (by omega), Mem.write_in _ _ _ i (by omega)]
  · rw [Mem.write_out _ _ _ _ (by omega), Mem.write_out _ _ _ _ (by omega), Mem.write_out _ _ _ _ (by omega)]

/-- Writing back what a slice holds changes nothing. -/
theorem Sl.write_read (m : Mem T) (s : Sl) : m.write s.off (s.read m) = m := by
  refine Mem.ext' ?_ rfl
  intro k
  by_cases hk : s.off ≤ k ∧ k < s.off + s.len
  · obtain ⟨i, rfl⟩ : ∃ i, k = s.off + i := ⟨k - s.off, by omega⟩
    rw [Mem.write_in _ _ _ i (by simp; omega), Sl.read_getElem]
  · rw [Mem.write_out _ _ _ _ (by simp; omega)]

/-- A write inside a block that was just written is a change of the block. -/
theorem Mem.write_sub (m : Mem T) (o : Nat) (xs ys : List T) (j : Nat) (h : j + ys.length ≤ xs.length) :
    (m.write o xs).write (o + j) ys = m.write o (xs.take j ++ ys ++ xs.drop (j + ys.length)) := by
  refine Mem.ext' ?_ rfl
  intro k
  have hl : (xs.take j ++ ys ++ xs.drop (j + ys.length)).length = xs.length := by simp; omega
  by_cases hk : o ≤ k ∧ k < o + xs.length
  · obtain ⟨i, rfl⟩ : ∃ i, k = o + i := ⟨k - o, by omega⟩
    rw [Mem.write_in m o _ i (by omega)]
    by_cases h1 : j ≤ i ∧ i < j + ys.length
    · obtain ⟨l, rfl⟩ : ∃ l, i = j + l := ⟨i - j, by omega⟩
      rw [← Nat.add_assoc, Mem.write_in _ _ _ l (by omega)]
      rw [List.getElem_append_left (by simp; omega), List.getElem_append_right (by simp; omega)]
      congr 1
      simp; omega
    · rw [Mem.write_out _ _ _ _ (by omega), Mem.write_in _ _ _ i (by omega)]
      by_cases h2 : i < j
      · rw [List.getElem_append_left (by simp; omega), List.getElem_append_left (by simp; omega)]
        simp
      · rw [List.getElem_append_right (by simp; omega), List.getElem_drop]
        congr 1
        simp; omega
  · rw [Mem.write_out _ _ _ _ (by omega), Mem.write_out _ _ _ _ (by omega), Mem.write_out _ _ _ _ (by omega)]

theorem Mem.write_set (m : Mem T) (o : Nat) (xs : List T) (j : Nat) (v : T) (h : j < xs.length) :
    (m.write o xs).write (o + j) [v] = m.write o (xs.set j v) := by
  rw [Mem.write_sub _ _ _ _ _ (by simp; omega)]
  congr 1
  rw [List.set_eq_take_append_cons_drop, if_pos h]
  simp

theorem Mem.write_append (m : Mem T) (o : Nat) (xs ys : List T) :
    (m.write o xs).write (o + xs.length) ys = m.write o (xs ++ ys) := by
  refine Mem.ext' ?_ rfl
  intro k
  by_cases hk : o ≤ k ∧ k < o + xs.length + ys.length
  · obtain ⟨i, rfl⟩ : ∃ i, k = o + i := ⟨k - o, by omega⟩
    rw [Mem.write_in m o _ i (by simp; omega)]
    by_cases h1 : i < xs.length
    · rw [Mem.write_out _ _ _ _ (by omega), Mem.write_in _ _ _ i h1, List.getElem_append_left h1]
    · obtain ⟨l, rfl⟩ : ∃ l, i = xs.length + l := ⟨i - xs.length, by omega⟩
      rw [← Nat.add_assoc, Mem.write_in _ _ _ l (by omega), List.getElem_append_right (by omega)]
      simp
  · rw [Mem.write_out _ _ _ _ (by omega), Mem.write_out _ _ _ _ (by omega), Mem.write_out _ _ _ _ (by simp; omega)]

/-! ## The operations on a slice whose contents are known -/

theorem Sl.get_ok (s : Sl) (m : Mem T) (i : Nat) (h : i < s.len) :
    s.get (i : Int) m = .ok ((s.read m)[i]'(by simpa using h)) m := by
  unfold Sl.get
  rw [if_pos (by omega), Sl.read_getElem]
  simp

theorem Sl.get_panic (s : Sl) (m : Mem T) (i : Int) (h : ¬ (0 ≤ i ∧ i < s.len)) : s.get i m = .panic m := by
  unfold Sl.get; rw [if_neg h]

theorem Sl.put_panic (s : Sl) (m : Mem T) (i : Int) (v : T) (h : ¬ (0 ≤ i ∧ i < s.len)) : s.put i v m = .panic m := by
  unfold Sl.put; rw [if_neg h]

theorem Sl.put_ok (s : Sl) (m : Mem T) (i : Nat) (v : T) (h : i < s.len) :
    s.put (i : Int) v m = .ok () (m.write s.off ((s.read m).set i v)) := by
  unfold Sl.put
  rw [if_pos (by omega)]
  congr 1
  have e := Sl.write_read m s
  show m.write (s.off + i) [v] = _
  rw [← Mem.write_set _ _ _ _ _ (by simpa using h), e]

theorem Sl.get_write (s : Sl) (m : Mem T) (xs : List T) (hl : xs.length = s.len) (i : Nat) (h : i < xs.length) :
    s.get (i : Int) (m.write s.off xs) = .ok xs[i] (m.write s.off xs) := by
  rw [Sl.get_ok _ _ _ (by omega)]
  congr 1
  simp [Sl.read_write_self m s xs hl]

theorem Sl.put_write (s : Sl) (m : Mem T) (xs : List T) (hl : xs.length = s.len) (i : Nat) (v : T) (h : i < xs.length) :
    s.put (i : Int) v (m.write s.off xs) = .ok () (m.write s.off (xs.set i v)) := by
  unfold Sl.put
  rw [if_pos (by omega)]
  congr 1
  exact Mem.write_set _ _ _ _ _ h

theorem Sl.slice_ok (s : Sl) (m : Mem T) (lo hi : Nat) (h : lo ≤ hi) (h2 : hi ≤ s.cap) :
    s.slice (lo : Int) (hi : Int) m = .ok { off := s.off + lo, len := hi - lo, cap := s.cap - lo } m := by
  unfold Sl.slice
  rw [if_pos (by omega)]
  congr 2
  omega

theorem Sl.slice_zero (s : Sl) (m : Mem T) (hi : Nat) (h : hi ≤ s.cap) :
    s.slice 0 (hi : Int) m = .ok { s with len := hi } m := by
  have := Sl.slice_ok s m 0 hi (by omega) h
  simpa using this

theorem Sl.slice_panic (s : Sl) (m : Mem T) (lo hi : Int) (h : ¬ (0 ≤ lo ∧ lo ≤ hi ∧ hi ≤ s.cap)) : s.slice lo hi m = .panic m := by
  unfold Sl.slice; rw [if_neg h]

/-- The elements of a sub-slice. -/
theorem Sl.read_sub (m : Mem T) (s : Sl) (lo n c : Nat) (h : lo + n ≤ s.len) :
    Sl.read m { off := s.off + lo, len := n, cap := c } = ((s.read m).drop lo).take n := by
  apply List.ext_getElem (by simp; omega)
  intro i h1 h2
  rw [Sl.read_getElem]
  simp [Sl.read_getElem, Nat.add_assoc]

/-! ## `append` and `make` -/

/-- What a caller sees of an operation that gives a slice: what it holds, that it is well formed, that it is either within the window of
`s` or in memory that was not allocated before, and that nothing else changed. -/
structure Grown (m : Mem T) (s : Sl) (m' : Mem T) (s' : Sl) (xs : List T) : Prop where
  read : s'.read m' = xs
  wf : s'.WF m'
  top : m.top ≤ m'.top
  place : (s'.off = s.off ∧ s'.cap = s.cap) ∨ m.top ≤ s'.off
  frame : ∀ k, k < m.top → (k < s.off ∨ s.off + s.cap ≤ k) → m'.cell k = m.cell k
  prefix_ : m.top ≤ s'.off → ∀ k, k < m.top → m'.cell k = m.cell k

theorem Sl.append_spec [GoZero T] (grow : Nat → Nat → Nat) (s : Sl) (ys : List T) (m : Mem T) (h : s.WF m) :
    ∃ s' m', s.append grow ys m = .ok s' m' ∧ Grown m s m' s' (s.read m ++ ys) ∧ s'.len = s.len + ys.length
      ∧ (s.len + ys.length ≤ s.cap → s' = { s with len := s.len + ys.length } ∧ m' = m.write (s.off + s.len) ys) := by
  obtain ⟨h1, h2⟩ := h
  unfold Sl.append
  by_cases hc : s.len + ys.length ≤ s.cap
  · refine ⟨_, _, by simp only [if_pos hc], ?_, rfl, fun _ => ⟨rfl, rfl⟩⟩
    refine ⟨?_, ⟨by simpa using hc, by simpa using h2⟩, by simp, .inl ⟨rfl, rfl⟩, ?_, ?_⟩
    · apply List.ext_getElem (by simp)
      intro i h3 h4
      simp at h3
      rw [Sl.read_getElem]
      by_cases hi : i < s.len
      · rw [Mem.write_out _ _ _ _ (by simp; omega), List.getElem_append_left (by simpa using hi), Sl.read_getElem]
      · obtain ⟨l, rfl⟩ : ∃ l, i = s.len + l := ⟨i - s.len, by omega⟩
        rw [List.getElem_append_right (by simp)]
        simp only [← Nat.add_assoc]
        rw [Mem.write_in _ _ _ l (by omega)]
        simp
    · intro k hk hd
      exact Mem.write_out _ _ _ _ (by omega)
    · intro hp k hk
      simp at hp
      exact Mem.write_out _ _ _ _ (by omega)
  · refine ⟨_, _, by simp only [if_neg hc]; rfl, ?_, rfl, fun h => absurd h hc⟩
    refine ⟨?_, ⟨Nat.le_max_left .., by simp; omega⟩, by simp, .inr (Nat.le_refl _), ?_, ?_⟩
    · apply List.ext_getElem (by simp)
      intro i h3 h4
      have h5 : i < s.len + ys.length := by simpa using h3
      rw [Sl.read_getElem, Mem.alloc_cell, Mem.write_in _ _ _ i (by simp; omega)]
      rw [List.getElem_append_left (by simpa using h5)]
    · intro k hk _
      rw [Mem.alloc_cell, Mem.write_out _ _ _ _ (by omega)]
    · intro _ k hk
      rw [Mem.alloc_cell, Mem.write_out _ _ _ _ (by omega)]

theorem Sl.make_ok [GoZero T] (n c : Nat) (h : n ≤ c) (m : Mem T) :
    Sl.make (n : Int) (c : Int) m = .ok { off := m.top, len := n, cap := c } (m.alloc (List.replicate c GoZero.zero)) := by
  unfold Sl.make
  rw [if_pos (by omega)]
  simp

theorem Sl.read_fresh (m : Mem T) (xs : List T) (n c : Nat) (h : n ≤ xs.length) :
    Sl.read (m.alloc xs) { off := m.top, len := n, cap := c } = xs.take n := by
  apply List.ext_getElem (by simp; omega)
  intro i h1 h2
  simp at h1
  rw [Sl.read_getElem, Mem.alloc_cell, Mem.write_in _ _ _ i (by omega)]
  simp

theorem Sl.WF.alloc {m : Mem T} {s : Sl} (h : s.WF m) (xs : List T) : s.WF (m.alloc xs) :=
  ⟨h.1, by have := h.2; simp; omega⟩

theorem Sl.WF.write {m : Mem T} {s : Sl} (h : s.WF m) (o : Nat) (xs : List T) : s.WF (m.write o xs) := h

end Stl4go
