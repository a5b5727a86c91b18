import Verif.Proofs.Transform
/-! # Lemmas about the functions of `transform.go` that make new slices, swap or fill -/
namespace Stl4go
variable {T R σ : Type}

/-! ## New slices -/

theorem Fresh.append [GoZero T] {m m' : Mem T} {r : Sl} (h : Fresh m m' r) (grow : Nat → Nat → Nat) (ys : List T) :
    ∃ r' m'', r.append grow ys m' = .ok r' m'' ∧ Fresh m m'' r' ∧ r'.read m'' = r.read m' ++ ys ∧ r'.len = r.len + ys.length := by
  obtain ⟨r', m'', e, g, hl, hin⟩ := Sl.append_spec grow r ys m' h.wf
  refine ⟨r', m'', e, ⟨g.wf, Nat.le_trans h.top g.top, ?_, ?_⟩, g.read, hl⟩
  · intro k hk
    rw [← h.keep k hk]
    apply g.frame k (Nat.lt_of_lt_of_le hk h.top)
    rcases h.new with hn | hn
    · exact .inl (by omega)
    · omega
  · rcases g.place with ⟨p1, p2⟩ | p
    · rw [p1, p2]; exact h.new
    · exact .inl (Nat.le_trans h.top p)

theorem Fresh.nil (m : Mem T) : Fresh m m Sl.empty := ⟨⟨Nat.le_refl _, Nat.zero_le _⟩, Nat.le_refl _, fun _ _ => rfl, .inr rfl⟩

theorem Fresh.make [GoZero T] (m : Mem T) (n c : Nat) (h : n ≤ c) :
    Fresh m (m.alloc (List.replicate c GoZero.zero)) { off := m.top, len := n, cap := c } :=
  ⟨⟨h, by simp⟩, by simp, fun k hk => by rw [Mem.alloc_cell, Mem.write_out _ _ _ _ (.inl hk)], .inl (Nat.le_refl _)⟩

/-- Slices of the old memory still hold what they held. -/
theorem Fresh.read_old {m m' : Mem T} {r a : Sl} (h : Fresh m m' r) (ha : a.WF m) : a.read m' = a.read m :=
  Sl.read_congr (fun k _ h2 => h.keep k (by have := ha.1; have := ha.2; omega))

theorem Fresh.get_old {m m' : Mem T} {r a : Sl} (h : Fresh m m' r) (ha : a.WF m) (i : Nat) (hi : i < (a.read m).length) :
    a.get (i : Int) m' = .ok (a.read m)[i] m' := by
  rw [Sl.get_ok a m' i (by simpa using hi)]
  simp only [h.read_old ha]

theorem copySlice_eq [GoZero T] (grow : Nat → Nat → Nat) (a : Sl) (m : Mem T) :
    ∃ r m', copySlice grow a m = .ok r m' ∧ Fresh m m' r ∧ r.read m' = a.read m := by
  obtain ⟨r, m', e, h, hr, _⟩ := (Fresh.nil m).append grow (a.read m)
  exact ⟨r, m', e, h, by simpa [Sl.empty, Sl.read] using hr⟩

theorem copyTo_eq [GoZero T] (grow : Nat → Nat → Nat) (a to : Sl) (m : Mem T) (ht : to.WF m) :
    ∃ r m', copyTo grow a to m = .ok r m' ∧ Grown m to m' r (a.read m)
      ∧ (a.len ≤ to.cap → r = { to with len := a.len } ∧ m' = m.write to.off (a.read m)) := by
  have hs := Sl.slice_zero to m 0 (Nat.zero_le _)
  simp only [Int.natCast_zero] at hs
  obtain ⟨r, m', e, g, _, hin⟩ := Sl.append_spec grow { to with len := 0 } (a.read m) m ⟨Nat.zero_le _, ht.2⟩
  have e0 : Sl.read m { to with len := 0 } = [] := by simp [Sl.read]
  refine ⟨r, m', ?_, ⟨by rw [g.read, e0]; rfl, g.wf, g.top, g.place, g.frame, g.prefix_⟩, ?_⟩
  · unfold copyTo
    simp only [GoM.bind_def, hs, Sl.load, e]
  · intro h
    have := hin (by simpa using h)
    simpa using this

theorem removeIfCopyLoop_eq [GoZero T] (grow : Nat → Nat → Nat) (a : Sl) (cond : σ → T → σ × Bool) (m : Mem T) (ha : a.WF m) (suf : List T) :
    ∀ (pre : List T) (t : σ) (r : Sl) (m' : Mem T), a.read m = pre ++ suf → Fresh m m' r →
      ∃ r' m'', removeIfCopyLoop grow a cond suf.length pre.length t r m' = .ok ((rejectS cond t suf).1, r') m''
        ∧ Fresh m m'' r' ∧ r'.read m'' = r.read m' ++ (rejectS cond t suf).2 := by
  induction suf with
  | nil => intro pre t r m' _ h; exact ⟨r, m', rfl, h, by simp [rejectS]⟩
  | cons v suf ih =>
    intro pre t r m' hr h
    simp only [List.length_cons, removeIfCopyLoop, GoM.bind_def]
    rw [h.get_old ha pre.length (by simp [hr])]
    simp only [hr, List.getElem_append_right (Nat.le_refl _), Nat.sub_self, List.getElem_cons_zero]
    by_cases hp : (cond t v).2 = false
    · obtain ⟨r1, m1, e1, h1, hr1, _⟩ := h.append grow [v]
      obtain ⟨r2, m2, e2, h2, hr2⟩ := ih (pre ++ [v]) (cond t v).1 r1 m1 (by simp [hr]) h1
      refine ⟨r2, m2, ?_, h2, by simp [hr2, hr1, rejectS, hp]⟩
      simp only [if_pos hp, GoM.bind_def, e1]
      simp at e2
      simp [e2, rejectS, hp]
    · have hp' : (cond t v).2 = true := by simpa using hp
      obtain ⟨r2, m2, e2, h2, hr2⟩ := ih (pre ++ [v]) (cond t v).1 r m' (by simp [hr]) h
      refine ⟨r2, m2, ?_, h2, by simp [hr2, rejectS, hp']⟩
      simp only [if_neg hp]
      simp at e2
      simp [e2, rejectS, hp']

theorem removeIfCopy_eq [GoZero T] (grow : Nat → Nat → Nat) (a : Sl) (cond : σ → T → σ × Bool) (m : Mem T) (t : σ) (ha : a.WF m) :
    ∃ r m', removeIfCopy grow a cond t m = .ok ((rejectS cond t (a.read m)).1, r) m' ∧ Fresh m m' r
      ∧ r.read m' = (rejectS cond t (a.read m)).2 := by
  have hm := Sl.make_ok (T := T) 0 a.len (Nat.zero_le _) m
  obtain ⟨r, m', e, h, hr⟩ := removeIfCopyLoop_eq grow a cond m ha (a.read m) [] t _ _ rfl (Fresh.make m 0 a.len (Nat.zero_le _))
  refine ⟨r, m', ?_, h, by simpa [Sl.read] using hr⟩
  unfold removeIfCopy
  simp only [Int.natCast_zero] at hm
  simp only [GoM.bind_def, hm]
  simpa using e

theorem removeCopyLoop_eq_if [GoEq T] [GoZero T] (grow : Nat → Nat → Nat) (a : Sl) (x : T) (n : Nat) : ∀ (k : Nat) (r : Sl) (m : Mem T),
    removeCopyLoop grow a x n k r m = (do
      let r ← removeIfCopyLoop grow a (fun (_ : Unit) v => ((), GoEq.eq v x)) n k () r
      pure r.2 : GoM (Mem T) Sl) m := by
  induction n with
  | zero => intro k j m; rfl
  | succ n ih =>
    intro k r m
    simp only [removeCopyLoop, removeIfCopyLoop, GoM.bind_def]
    cases a.get k m with
    | panic s => rfl
    | diverge => rfl
    | ok v s =>
      simp only
      by_cases hp : GoEq.eq v x = false
      · simp only [if_pos hp, GoM.bind_def]
        cases r.append grow [v] s with
        | panic s => rfl
        | diverge => rfl
        | ok u s => simp only [ih]; rfl
      · simp only [if_neg hp, ih]; rfl

theorem removeCopy_eq [GoEq T] [GoZero T] (grow : Nat → Nat → Nat) (a : Sl) (x : T) (m : Mem T) (ha : a.WF m) :
    ∃ r m', removeCopy grow a x m = .ok r m' ∧ Fresh m m' r
      ∧ r.read m' = (rejectS (fun (_ : Unit) v => ((), GoEq.eq v x)) () (a.read m)).2 := by
  obtain ⟨r, m', e, h, hr⟩ := removeIfCopy_eq grow a (fun (_ : Unit) v => ((), GoEq.eq v x)) m () ha
  refine ⟨r, m', ?_, h, hr⟩
  unfold removeCopy
  unfold removeIfCopy at e
  simp only [GoM.bind_def, removeCopyLoop_eq_if] at e ⊢
  cases h1 : Sl.make (T := T) 0 a.len m with
  | panic s => simp [h1] at e
  | diverge => simp [h1] at e
  | ok b s =>
    simp only [h1] at e ⊢
    rw [e]
    rfl

theorem uniqueCopyLoop_eq [GoEq T] [GoZero T] (grow : Nat → Nat → Nat) (a : Sl) (m : Mem T) (ha : a.WF m) (suf : List T) :
    ∀ (pre acc : List T) (prev : T) (r : Sl) (m' : Mem T), a.read m = pre ++ suf → Fresh m m' r → r.read m' = acc ++ [prev] →
      (∀ x y : T, GoEq.eq x y = GoEq.eq y x) →
      ∃ r' m'', uniqueCopyLoop grow a suf.length pre.length r m' = .ok r' m''
        ∧ Fresh m m'' r' ∧ r'.read m'' = acc ++ [prev] ++ startsK prev suf := by
  induction suf with
  | nil => intro pre acc prev r m' _ h hr _; exact ⟨r, m', rfl, h, by simp [startsK, hr]⟩
  | cons v suf ih =>
    intro pre acc prev r m' hr h hacc hsym
    have hlen : r.len = acc.length + 1 := by rw [← Sl.read_length m' r, hacc]; simp
    simp only [List.length_cons, uniqueCopyLoop, GoM.bind_def]
    rw [h.get_old ha pre.length (by simp [hr])]
    simp only [hr, List.getElem_append_right (Nat.le_refl _), Nat.sub_self, List.getElem_cons_zero]
    rw [if_pos (by omega)]
    have hg : r.get ((r.len : Int) - 1) m' = .ok prev m' := by
      rw [show ((r.len : Int) - 1) = ((acc.length : Nat) : Int) by omega, Sl.get_ok _ _ _ (by omega)]
      congr 1
      simp [hacc]
    simp only [GoM.bind_def, hg]
    by_cases hp : GoEq.eq prev v = true
    · obtain ⟨r2, m2, e2, h2, hr2⟩ := ih (pre ++ [v]) acc prev r m' (by simp [hr]) h hacc hsym
      refine ⟨r2, m2, ?_, h2, ?_⟩
      · simp only [if_pos hp]
        simpa using e2
      · rw [hr2]; simp [startsK, hsym v prev, hp]
    · obtain ⟨r1, m1, e1, h1, hr1, _⟩ := h.append grow [v]
      obtain ⟨r2, m2, e2, h2, hr2⟩ := ih (pre ++ [v]) (acc ++ [prev]) v r1 m1 (by simp [hr]) h1 (by rw [hr1, hacc]) hsym
      refine ⟨r2, m2, ?_, h2, ?_⟩
      · simp only [if_neg hp, GoM.bind_def, e1]
        simpa using e2
      · rw [hr2]; simp [startsK, hsym v prev, hp]

theorem uniqueCopy_eq [GoEq T] [GoZero T] (hE : PartialEq T) (grow : Nat → Nat → Nat) (a : Sl) (m : Mem T) (ha : a.WF m) :
    ∃ r m', uniqueCopy grow a m = .ok r m' ∧ Fresh m m' r ∧ r.read m' = collapse (a.read m) := by
  have hsym : ∀ x y : T, GoEq.eq x y = GoEq.eq y x := by
    intro x y
    rcases Bool.eq_false_or_eq_true (GoEq.eq x y) with h1 | h1 <;> rcases Bool.eq_false_or_eq_true (GoEq.eq y x) with h2 | h2
    · rw [h1, h2]
    · rw [hE.symm _ _ h1] at h2; cases h2
    · rw [hE.symm _ _ h2] at h1; cases h1
    · rw [h1, h2]
  unfold uniqueCopy
  by_cases h0 : a.len = 0
  · have hr : a.read m = [] := List.eq_nil_of_length_eq_zero (by simpa using h0)
    rw [if_pos h0]
    exact ⟨Sl.empty, m, rfl, Fresh.nil m, by rw [hr]; rfl⟩
  · rw [if_neg h0]
    obtain ⟨x, s, hr⟩ := List.exists_cons_of_length_pos (l := a.read m) (by simp; omega)
    have hl : (x :: s).length = a.len := by rw [← hr]; simp
    obtain ⟨r1, m1, e1, h1, hr1, _⟩ := (Fresh.nil m).append grow [x]
    obtain ⟨r2, m2, e2, h2, hr2⟩ := uniqueCopyLoop_eq grow a m ha s [x] [] x r1 m1 (by simp [hr]) h1
      (by simpa [Sl.read, Sl.empty] using hr1) hsym
    refine ⟨r2, m2, ?_, h2, ?_⟩
    · rw [← hl, List.length_cons]
      simp only [uniqueCopyLoop, GoM.bind_def]
      have hg := Sl.get_ok a m 0 (by omega)
      simp only [hr, List.getElem_cons_zero] at hg
      rw [hg]
      simp only
      rw [if_neg (show ¬ Sl.empty.len > 0 by simp [Sl.empty])]
      simp only [GoM.bind_def, e1]
      simpa using e2
    · rw [hr2, hr, startsK_self hE]; rfl

theorem reverseCopyLoop_eq [GoZero T] (grow : Nat → Nat → Nat) (a : Sl) (m : Mem T) (ha : a.WF m) (n : Nat) :
    ∀ (r : Sl) (m' : Mem T), n ≤ a.len → Fresh m m' r →
      ∃ r' m'', reverseCopyLoop grow a n r m' = .ok r' m'' ∧ Fresh m m'' r' ∧ r'.read m'' = r.read m' ++ ((a.read m).take n).reverse := by
  induction n with
  | zero => intro r m' _ h; exact ⟨r, m', rfl, h, by simp⟩
  | succ n ih =>
    intro r m' hn h
    simp only [reverseCopyLoop, GoM.bind_def]
    rw [h.get_old ha n (by simp; omega)]
    obtain ⟨r1, m1, e1, h1, hr1, _⟩ := h.append grow [(a.read m)[n]'(by simp; omega)]
    obtain ⟨r2, m2, e2, h2, hr2⟩ := ih r1 m1 (by omega) h1
    refine ⟨r2, m2, ?_, h2, ?_⟩
    · simp only [e1, e2]
    · rw [hr2, hr1, ← List.take_append_getElem (l := a.read m) (i := n) (by simp; omega)]
      simp [-List.take_append_getElem]

theorem reverseCopy_eq [GoZero T] (grow : Nat → Nat → Nat) (a : Sl) (m : Mem T) (ha : a.WF m) :
    ∃ r m', reverseCopy grow a m = .ok r m' ∧ Fresh m m' r ∧ r.read m' = (a.read m).reverse := by
  have hm := Sl.make_ok (T := T) 0 a.len (Nat.zero_le _) m
  obtain ⟨r, m', e, h, hr⟩ := reverseCopyLoop_eq grow a m ha a.len _ _ (Nat.le_refl _) (Fresh.make m 0 a.len (Nat.zero_le _))
  refine ⟨r, m', ?_, h, ?_⟩
  · unfold reverseCopy
    simp only [Int.natCast_zero] at hm
    simp only [GoM.bind_def, hm, e]
  · rw [hr, List.take_of_length_le (by simp)]; simp [Sl.read]

/-! ## Transform into another slice -/

theorem transformCopyLoop_eq (rd : Nat → GoM (Mem R) T) (op : σ → T → σ × R) (r : Sl) (m : Mem R) (xs suf : List T)
    (hrd : ∀ (i : Nat) (h : i < xs.length) (ys : List R), rd i (m.write r.off ys) = .ok xs[i] (m.write r.off ys)) :
    ∀ (done : List T) (pre z : List R) (t : σ), xs = done ++ suf → done.length = pre.length → z.length = suf.length →
      r.len = pre.length + suf.length →
      transformCopyLoop rd op r suf.length pre.length t (m.write r.off (pre ++ z))
        = .ok (mapS op t suf).1 (m.write r.off (pre ++ (mapS op t suf).2)) := by
  induction suf with
  | nil => intro done pre z t _ _ hz _; simp at hz; subst hz; rfl
  | cons v suf ih =>
    intro done pre z t hx hd hz hl
    cases z with
    | nil => simp at hz
    | cons z0 z =>
      simp only [List.length_cons, transformCopyLoop, GoM.bind_def]
      rw [hrd pre.length (by simp [hx]; omega)]
      have hv : xs[pre.length]'(by simp [hx]; omega) = v := by simp [hx, ← hd]
      simp only [hv]
      rw [Sl.put_mid r m pre z z0 _ (by simp at hl hz ⊢; omega)]
      have := ih (done ++ [v]) (pre ++ [(op t v).2]) z (op t v).1 (by simp [hx]) (by simp [hd]) (by simpa using hz) (by simp at hl ⊢; omega)
      simp at this
      simp [this, mapS]

theorem transformCopyOther_eq [GoZero R] (xs : List T) (op : σ → T → σ × R) (t : σ) (m : Mem R) :
    ∃ r m', transformCopyOther xs op t m = .ok ((mapS op t xs).1, r) m' ∧ Fresh m m' r ∧ r.read m' = (mapS op t xs).2 := by
  have hm := Sl.make_ok (T := R) xs.length xs.length (Nat.le_refl _) m
  have hF := Fresh.make m xs.length xs.length (Nat.le_refl _)
  generalize hm1 : m.alloc (List.replicate xs.length GoZero.zero) = m1 at hm hF
  have hread : Sl.read m1 { off := m.top, len := xs.length, cap := xs.length } = List.replicate xs.length GoZero.zero := by
    rw [← hm1, Sl.read_fresh _ _ _ _ (by simp)]; simp
  have e := transformCopyLoop_eq (readOther (R := R) xs) op { off := m.top, len := xs.length, cap := xs.length } m1 xs xs
    (fun i h ys => by simp [readOther, h]) [] [] (List.replicate xs.length GoZero.zero) t rfl rfl (by simp) (by simp)
  have hw := Sl.write_read m1 { off := m.top, len := xs.length, cap := xs.length }
  rw [hread] at hw
  simp only [List.nil_append, List.length_nil] at e
  simp only at hw e
  rw [hw] at e
  refine ⟨_, m1.write m.top (mapS op t xs).2, ?_, ⟨hF.wf, hF.top, ?_, hF.new⟩,
    Sl.read_write_self m1 { off := m.top, len := xs.length, cap := xs.length } _ (by simp [mapS_length])⟩
  · unfold transformCopyOther
    simp only [GoM.bind_def, hm, e, GoM.pure_apply]
  · intro k hk
    rw [Mem.write_out _ _ _ _ (.inl hk)]
    exact hF.keep k hk

theorem transformCopy_eq [GoZero T] (a : Sl) (op : σ → T → σ × T) (t : σ) (m : Mem T) (ha : a.WF m) :
    ∃ r m', transformCopy a op t m = .ok ((mapS op t (a.read m)).1, r) m' ∧ Fresh m m' r ∧ r.read m' = (mapS op t (a.read m)).2 := by
  have hm := Sl.make_ok (T := T) a.len a.len (Nat.le_refl _) m
  have hF := Fresh.make m a.len a.len (Nat.le_refl _)
  generalize hm1 : m.alloc (List.replicate a.len GoZero.zero) = m1 at hm hF
  have hread : Sl.read m1 { off := m.top, len := a.len, cap := a.len } = List.replicate a.len GoZero.zero := by
    rw [← hm1, Sl.read_fresh _ _ _ _ (by simp)]; simp
  have hold : ∀ ys : List T, a.read (m1.write m.top ys) = a.read m := fun ys => by
    rw [Sl.read_write_disjoint _ _ _ _ (.inl (by have := ha.1; have := ha.2; omega)), hF.read_old ha]
  have e := transformCopyLoop_eq (fun i => a.get i) op { off := m.top, len := a.len, cap := a.len } m1 (a.read m) (a.read m)
    (fun i h ys => by
      rw [Sl.get_ok _ _ _ (by simpa using h)]
      simp only [hold])
    [] [] (List.replicate a.len GoZero.zero) t rfl rfl (by simp) (by simp)
  have hw := Sl.write_read m1 { off := m.top, len := a.len, cap := a.len }
  rw [hread] at hw
  simp only [List.nil_append, List.length_nil, Sl.read_length] at e
  simp only at hw e
  rw [hw] at e
  refine ⟨_, m1.write m.top (mapS op t (a.read m)).2, ?_, ⟨hF.wf, hF.top, ?_, hF.new⟩,
    Sl.read_write_self m1 { off := m.top, len := a.len, cap := a.len } _ (by simp [mapS_length])⟩
  · unfold transformCopy
    simp only [GoM.bind_def, hm, e, GoM.pure_apply]
  · intro k hk
    rw [Mem.write_out _ _ _ _ (.inl hk)]
    exact hF.keep k hk

/-- `TransformTo`'s loop: the elements still to be read keep their values because every write goes to a cell that is before them, after
them all, or new. `Src m0 k m'` says that the elements of `a` from the `k`-th on are still readable. -/
theorem transformToLoop_eq [GoZero R] (grow : Nat → Nat → Nat) (rd : Nat → GoM (Mem R) T) (op : σ → T → σ × R) (xs suf : List T) (m : Mem R) (b0 : Sl)
    (Src : Nat → Mem R → Prop)
    (hrd : ∀ (i : Nat) (h : i < xs.length) (m' : Mem R), Src i m' → rd i m' = .ok xs[i] m')
    (hstep : ∀ (i : Nat) (m1 m2 : Mem R), i < xs.length → Src i m1 → m.top ≤ m1.top →
      (∀ k, k < m.top → (i < b0.cap → k ≠ b0.off + i) → m2.cell k = m1.cell k) → Src (i + 1) m2) :
    ∀ (done : List T) (t : σ) (b : Sl) (m1 : Mem R), xs = done ++ suf → b.len = done.length → b.WF m1 → Src done.length m1 → m.top ≤ m1.top →
      ((b.off = b0.off ∧ b.cap = b0.cap) ∨ m.top ≤ b.off) → (∀ k, k < m.top → (k < b0.off ∨ b0.off + b0.cap ≤ k) → m1.cell k = m.cell k) →
      (b0.off + b0.cap ≤ m.top) →
      ∃ b' m2, transformToLoop grow rd op suf.length done.length t b m1 = .ok ((mapS op t suf).1, b') m2
        ∧ b'.read m2 = b.read m1 ++ (mapS op t suf).2 ∧ b'.WF m2 ∧ m.top ≤ m2.top
        ∧ ((b'.off = b0.off ∧ b'.cap = b0.cap) ∨ m.top ≤ b'.off)
        ∧ (∀ k, k < m.top → (k < b0.off ∨ b0.off + b0.cap ≤ k) → m2.cell k = m.cell k)
        ∧ (b.len + suf.length ≤ b.cap → b' = { b with len := b.len + suf.length } ∧ m2 = m1.write (b.off + b.len) (mapS op t suf).2) := by
  induction suf with
  | nil =>
    intro done t b m1 hx hl hwf hS htop hp hf hb0
    exact ⟨b, m1, rfl, by simp [mapS], hwf, htop, hp, hf, fun _ => ⟨rfl, by simp [mapS]⟩⟩
  | cons v suf ih =>
    intro done t b m1 hx hl hwf hS htop hp hf hb0
    simp only [List.length_cons, transformToLoop, GoM.bind_def]
    rw [hrd done.length (by simp [hx]) m1 hS]
    have hv : xs[done.length]'(by simp [hx]) = v := by simp [hx]
    simp only [hv]
    obtain ⟨b1, m2, e1, g, hl1, hin⟩ := Sl.append_spec grow b [(op t v).2] m1 hwf
    have hframe : ∀ k, k < m.top → (done.length < b0.cap → k ≠ b0.off + done.length) → m2.cell k = m1.cell k := by
      intro k hk hne
      rcases hp with ⟨p1, p2⟩ | p
      · by_cases hc : b.len + 1 ≤ b.cap
        · rw [(hin hc).2, Mem.write_out _ _ _ _ (by have := hne (by omega); simp; omega)]
        · have : m1.top ≤ b1.off := by
            rcases g.place with ⟨q1, q2⟩ | q
            · have := g.wf.1; simp at hl1; omega
            · exact q
          exact g.prefix_ this k (by omega)
      · exact g.frame k (by omega) (.inl (by omega))
    obtain ⟨b2, m3, e2, hr2, hw2, ht2, hp2, hf2, hin2⟩ := ih (done ++ [v]) (op t v).1 b1 m2 (by simp [hx]) (by simp at hl1; simp [hl1, hl]) g.wf
      (by simpa using hstep done.length m1 m2 (by simp [hx]) hS htop hframe) (Nat.le_trans htop g.top)
      (by
        rcases g.place with ⟨q1, q2⟩ | q
        · rw [q1, q2]; exact hp
        · exact .inr (Nat.le_trans htop q))
      (by
        intro k hk hko
        rw [hframe k hk (by intro; omega)]
        exact hf k hk hko) hb0
    refine ⟨b2, m3, ?_, ?_, hw2, ht2, hp2, hf2, ?_⟩
    · rw [e1]
      simp at e2
      simp [e2, mapS]
    · rw [hr2, g.read]; simp [mapS]
    · intro hc
      obtain ⟨q1, q2⟩ := hin (by simp; omega)
      obtain ⟨q3, q4⟩ := hin2 (by rw [q1]; simp; omega)
      refine ⟨by rw [q3, q1]; simp; omega, ?_⟩
      rw [q4, q1, q2]
      simp only [List.length_singleton, mapS]
      have := Mem.write_append m1 (b.off + b.len) [(op t v).2] (mapS op (op t v).1 suf).2
      simp at this
      rw [← this]
      rfl

end Stl4go
