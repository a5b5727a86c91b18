import Verif.Proofs.Callback
/-! # Lemmas: callbacks with a state of their own, in the functions that make new slices, and `RemoveIf` of a vector -/
namespace Stl4go
variable {T R σ α ρ : Type}

theorem callsAll_length {cb : T → GoM σ α} {xs : List T} {t t' : σ} (h : (callsAll cb xs t).2 = .done t') :
    (callsAll cb xs t).1.length = xs.length := by
  induction xs generalizing t with
  | nil => rfl
  | cons x xs ih =>
    cases hc : cb x t with
    | panic t' => simp [callsUntil, hc] at h
    | diverge => simp [callsUntil, hc] at h
    | ok b t' =>
      simp only [callsAll, callsUntil, hc, Bool.false_eq_true, if_false] at h ⊢
      simpa using ih h

theorem CS.on_append [GoZero T] (grow : Nat → Nat → Nat) {m1 m2 : Mem T} {r r' : Sl} {ys : List T} (t : ρ)
    (e : r.append grow ys m1 = .ok r' m2) : CS.on (r.append grow ys) (⟨m1, t⟩ : CS T ρ) = .ok r' ⟨m2, t⟩ := CS.on_ok e

theorem removeIfCopyLoopC_eq [GoZero T] (grow : Nat → Nat → Nat) (a : Sl) (cond : T → GoM σ Bool) (m : Mem T) (ha : a.WF m) (xs : List T) :
    ∀ (i : Nat) (t : σ) (r : Sl) (m' : Mem T), (a.read m).drop i = xs → Fresh m m' r →
      ∃ r' m'', removeIfCopyLoopC grow a (fun x => ownState (cond x)) xs.length i r ⟨m', t⟩ = (callsAll cond xs t).2.outcome m'' r'
        ∧ Fresh m m'' r' ∧ r'.read m'' = r.read m' ++ keptBy xs (callsAll cond xs t).1 := by
  induction xs with
  | nil => intro i t r m' _ h; exact ⟨r, m', rfl, h, by simp [keptBy]⟩
  | cons x xs ih =>
    intro i t r m' hr h
    obtain ⟨h1, h2, h3⟩ := CS.get_at a ⟨m', t⟩ i (x := x) (xs := xs) (by simpa [h.read_old ha] using hr)
    simp only [h.read_old ha] at h3
    simp only [List.length_cons, removeIfCopyLoopC, GoM.bind_ok h1, GoM.bind_def, ownState]
    cases hc : cond x t with
    | panic t' => exact ⟨r, m', by simp [callsUntil, hc, CallEnd.outcome], h, by simp [callsUntil, hc, keptBy]⟩
    | diverge => exact ⟨r, m', by simp [callsUntil, hc, CallEnd.outcome], h, by simp [callsUntil, hc, keptBy]⟩
    | ok b t' =>
      cases b with
      | true =>
        obtain ⟨r2, m2, e2, h2, hr2⟩ := ih (i + 1) t' r m' h3 h
        refine ⟨r2, m2, ?_, h2, by simp [hr2, callsUntil, hc, keptBy]⟩
        simp only [Bool.true_eq_false, if_false, e2]
        simp [callsUntil, hc]
      | false =>
        obtain ⟨r1, m1, e1, f1, hr1, _⟩ := h.append grow [x]
        obtain ⟨r2, m2, e2, h2, hr2⟩ := ih (i + 1) t' r1 m1 h3 f1
        refine ⟨r2, m2, ?_, h2, by simp [hr2, hr1, callsUntil, hc, keptBy]⟩
        simp only [if_true, GoM.bind_def, CS.on_append grow t' e1, e2]
        simp [callsUntil, hc]

theorem removeIfCopyC_eq [GoZero T] (grow : Nat → Nat → Nat) (a : Sl) (cond : T → GoM σ Bool) (m : Mem T) (t : σ) (ha : a.WF m) :
    ∃ r m', removeIfCopyC grow a (fun x => ownState (cond x)) ⟨m, t⟩ = (callsAll cond (a.read m) t).2.outcome m' r
      ∧ Fresh m m' r ∧ r.read m' = keptBy (a.read m) (callsAll cond (a.read m) t).1 := by
  have hm := Sl.make_ok (T := T) 0 a.len (Nat.zero_le _) m
  obtain ⟨r, m', e, h, hr⟩ := removeIfCopyLoopC_eq grow a cond m ha (a.read m) 0 t _ _ rfl (Fresh.make m 0 a.len (Nat.zero_le _))
  refine ⟨r, m', ?_, h, by simpa [Sl.read] using hr⟩
  simp only [Int.natCast_zero] at hm
  simp only [removeIfCopyC, GoM.bind_def, CS.on_ok (s := (⟨m, t⟩ : CS T σ)) hm]
  simpa using e

/-! ## TransformCopy, TransformTo -/

theorem transformCopyLoopC_eq (rd : Nat → GoM (CS R σ) T) (op : T → GoM σ R) (r : Sl) (xs : List T) (P : σ → Prop)
    (hP : ∀ x t y t', P t → op x t = .ok y t' → P t') (suf : List T) :
    ∀ (i : Nat) (m : Mem R) (t : σ), xs.drop i = suf → P t → i + suf.length ≤ r.len →
      (∀ (i : Nat) (h : i < xs.length) (j : Nat) (ys : List R) (t : σ), P t → j + ys.length ≤ r.len →
        rd i ⟨m.write (r.off + j) ys, t⟩ = .ok xs[i] ⟨m.write (r.off + j) ys, t⟩) →
      transformCopyLoopC rd (fun x => ownState (op x)) r suf.length i ⟨m, t⟩ =
        (callsAll op suf t).2.outcome (m.write (r.off + i) (callsAll op suf t).1) () := by
  induction suf with
  | nil => intro i m t _ _ _ _; simp [transformCopyLoopC, callsUntil, CallEnd.outcome]
  | cons v suf ih =>
    intro i m t hx ht hl hrd
    have hi : i < xs.length := by
      apply Decidable.byContradiction
      intro hn
      rw [List.drop_eq_nil_of_le (by omega)] at hx
      exact List.cons_ne_nil _ _ hx.symm
    rw [List.drop_eq_getElem_cons hi] at hx
    injection hx with hx1 hx2
    have h0 := hrd i hi 0 [] t ht (by simp)
    simp only [Mem.write_nil, hx1] at h0
    simp only [List.length_cons, transformCopyLoopC, GoM.bind_ok h0, GoM.bind_def, ownState]
    cases hc : op v t with
    | panic t' => simp [callsUntil, hc, CallEnd.outcome]
    | diverge => simp [callsUntil, hc, CallEnd.outcome]
    | ok y t' =>
      simp only [List.length_cons] at hl
      simp only
      rw [CS.put_at r m t' i y (by omega)]
      simp only
      rw [ih (i + 1) _ _ hx2 (hP _ _ _ _ ht hc) (by omega) (by
        intro k hk j ys u hu hj
        -- two writes within the slice are one write of the whole slice
        have e : (m.write (r.off + i) [y]).write (r.off + j) ys =
            m.write (r.off + 0) (r.read ((m.write (r.off + i) [y]).write (r.off + j) ys)) := by
          refine Mem.ext' (fun k => ?_) rfl
          by_cases hk : r.off ≤ k ∧ k < r.off + r.len
          · obtain ⟨l, rfl⟩ : ∃ l, k = r.off + l := ⟨k - r.off, by omega⟩
            rw [Nat.add_zero, Mem.write_in m r.off _ l (by simp; omega), Sl.read_getElem]
          · rw [Mem.write_out _ _ _ _ (by omega), Mem.write_out _ _ _ _ (by simp; omega), Mem.write_out _ _ _ _ (by simp; omega)]
        rw [e]
        exact hrd k hk 0 _ u hu (by simp))]
      simp only [callsAll, callsUntil, hc, Bool.false_eq_true, if_false]
      rw [← Nat.add_assoc, write_cons]

theorem transformCopyC_eq [GoZero R] (n : Nat) (rd : Nat → GoM (CS R σ) T) (op : T → GoM σ R) (xs : List T) (hn : xs.length = n) (P : σ → Prop)
    (hP : ∀ x t y t', P t → op x t = .ok y t' → P t') (m : Mem R) (t : σ) (ht : P t)
    (hrd : ∀ (i : Nat) (h : i < xs.length) (m' : Mem R) (t : σ), P t → (∀ k, k < m.top → m'.cell k = m.cell k) →
      rd i ⟨m', t⟩ = .ok xs[i] ⟨m', t⟩) :
    ∃ r m', transformCopyC n rd (fun x => ownState (op x)) ⟨m, t⟩ = (callsAll op xs t).2.outcome m' r
      ∧ Fresh m m' r ∧ r.len = n ∧ (callsAll op xs t).1 <+: r.read m' := by
  have hm := Sl.make_ok (T := R) n n (Nat.le_refl _) m
  have hF := Fresh.make m n n (Nat.le_refl _)
  have hl : (callsAll op xs t).1.length ≤ xs.length := callsUntil_length_le (fun _ => false) op xs t
  refine ⟨_, (m.alloc (List.replicate n GoZero.zero)).write m.top (callsAll op xs t).1, ?_, ⟨hF.wf, hF.top, ?_, hF.new⟩, rfl, ?_⟩
  · have e := transformCopyLoopC_eq rd op { off := m.top, len := n, cap := n } xs P hP xs 0 (m.alloc (List.replicate n GoZero.zero)) t rfl ht
      (by simp [hn]) (by
        intro i hi j ys u hu hj
        apply hrd i hi _ u hu
        intro k hk
        rw [Mem.write_out _ _ _ _ (by simp only; omega)]
        exact hF.keep k hk)
    subst hn
    simp only [transformCopyC, GoM.bind_def, CS.on_ok (s := (⟨m, t⟩ : CS R σ)) hm, e]
    cases (callsAll op xs t).2 <;> rfl
  · intro k hk
    rw [Mem.write_out _ _ _ _ (by omega)]
    exact hF.keep k hk
  · refine ⟨(List.replicate n GoZero.zero).drop (callsAll op xs t).1.length, ?_⟩
    apply List.ext_getElem (by simp; omega)
    intro i h1 h2
    rw [Sl.read_getElem]
    simp only
    by_cases hi : i < (callsAll op xs t).1.length
    · rw [Mem.write_in _ _ _ i hi, List.getElem_append_left hi]
    · rw [Mem.write_out _ _ _ _ (by omega), Mem.alloc_cell]
      simp only [List.length_append, List.length_drop, List.length_replicate] at h1
      rw [Mem.write_in _ _ _ i (by simp; omega), List.getElem_append_right (by omega)]
      simp

theorem transformToLoopC_eq [GoZero R] (grow : Nat → Nat → Nat) (rd : Nat → GoM (CS R σ) T) (op : T → GoM σ R) (xs suf : List T) (m : Mem R) (b0 : Sl)
    (P : σ → Prop) (hP : ∀ x t y t', P t → op x t = .ok y t' → P t') (Src : Nat → Mem R → Prop)
    (hrd : ∀ (i : Nat) (h : i < xs.length) (m' : Mem R) (t : σ), P t → Src i m' → rd i ⟨m', t⟩ = .ok xs[i] ⟨m', t⟩)
    (hstep : ∀ (i : Nat) (m1 m2 : Mem R), i < xs.length → Src i m1 → m.top ≤ m1.top →
      (∀ k, k < m.top → (i < b0.cap → k ≠ b0.off + i) → m2.cell k = m1.cell k) → Src (i + 1) m2) :
    ∀ (done : List T) (t : σ) (b : Sl) (m1 : Mem R), xs = done ++ suf → P t → b.len = done.length → b.WF m1 → Src done.length m1 → m.top ≤ m1.top →
      ((b.off = b0.off ∧ b.cap = b0.cap) ∨ m.top ≤ b.off) → (∀ k, k < m.top → (k < b0.off ∨ b0.off + b0.cap ≤ k) → m1.cell k = m.cell k) →
      (b0.off + b0.cap ≤ m.top) →
      ∃ b' m2, transformToLoopC grow rd (fun x => ownState (op x)) suf.length done.length b ⟨m1, t⟩ = (callsAll op suf t).2.outcome m2 b'
        ∧ b'.read m2 = b.read m1 ++ (callsAll op suf t).1 ∧ b'.WF m2 ∧ m.top ≤ m2.top
        ∧ ((b'.off = b0.off ∧ b'.cap = b0.cap) ∨ m.top ≤ b'.off)
        ∧ (∀ k, k < m.top → (k < b0.off ∨ b0.off + b0.cap ≤ k) → m2.cell k = m.cell k)
        ∧ (b.len + (callsAll op suf t).1.length ≤ b.cap →
            b' = { b with len := b.len + (callsAll op suf t).1.length } ∧ m2 = m1.write (b.off + b.len) (callsAll op suf t).1) := by
  induction suf with
  | nil =>
    intro done t b m1 hx ht hl hwf hS htop hp hf hb0
    exact ⟨b, m1, rfl, by simp [callsUntil], hwf, htop, hp, hf, fun _ => ⟨rfl, by simp [callsUntil]⟩⟩
  | cons v suf ih =>
    intro done t b m1 hx ht hl hwf hS htop hp hf hb0
    have h0 := hrd done.length (by simp [hx]) m1 t ht hS
    have hv : xs[done.length]'(by simp [hx]) = v := by simp [hx]
    rw [hv] at h0
    simp only [List.length_cons, transformToLoopC, GoM.bind_ok h0, GoM.bind_def, ownState]
    cases hc : op v t with
    | panic t' => exact ⟨b, m1, by simp [callsUntil, hc, CallEnd.outcome], by simp [callsUntil, hc], hwf, htop, hp, hf, fun _ => by simp [callsUntil, hc]⟩
    | diverge => exact ⟨b, m1, by simp [callsUntil, hc, CallEnd.outcome], by simp [callsUntil, hc], hwf, htop, hp, hf, fun _ => by simp [callsUntil, hc]⟩
    | ok y t' =>
      have ht' := hP _ _ _ _ ht hc
      have hbs : callsAll op (v :: suf) t = (y :: (callsAll op suf t').1, (callsAll op suf t').2) := by simp [callsUntil, hc]
      obtain ⟨b1, m2, e1, g, hl1, hin⟩ := Sl.append_spec grow b [y] m1 hwf
      have hframe : ∀ k, k < m.top → (done.length < b0.cap → k ≠ b0.off + done.length) → m2.cell k = m1.cell k := by
        intro k hk hne
        rcases hp with ⟨p1, p2⟩ | p
        · by_cases hc : b.len + 1 ≤ b.cap
          · rw [(hin hc).2, Mem.write_out _ _ _ _ (by have := hne (by omega); simp; omega)]
          · have : m1.top ≤ b1.off := by
              rcases g.place with ⟨q1, q2⟩ | q
              · have := g.wf.1; simp at hl1; omega
              · exact q
            exact g.prefix_ this k (by omega)
        · exact g.frame k (by omega) (.inl (by omega))
      obtain ⟨b2, m3, e2, hr2, hw2, ht2, hp2, hf2, hin2⟩ := ih (done ++ [v]) t' b1 m2 (by simp [hx]) ht' (by simp at hl1; simp [hl1, hl]) g.wf
        (by simpa using hstep done.length m1 m2 (by simp [hx]) hS htop hframe) (Nat.le_trans htop g.top)
        (by
          rcases g.place with ⟨q1, q2⟩ | q
          · rw [q1, q2]; exact hp
          · exact .inr (Nat.le_trans htop q))
        (by
          intro k hk hko
          rw [hframe k hk (by intro; omega)]
          exact hf k hk hko) hb0
      refine ⟨b2, m3, ?_, ?_, hw2, ht2, hp2, hf2, ?_⟩
      · simp only [CS.on_append grow t' e1, hbs]
        simpa using e2
      · rw [hr2, g.read, hbs]; simp
      · rw [hbs]
        intro hc
        simp only [List.length_cons] at hc ⊢
        obtain ⟨q1, q2⟩ := hin (by simp; omega)
        obtain ⟨q3, q4⟩ := hin2 (by rw [q1]; simp; omega)
        refine ⟨by rw [q3, q1]; simp; omega, ?_⟩
        rw [q4, q1, q2]
        simp only [List.length_singleton]
        rw [← Nat.add_assoc, write_cons]

theorem transformToC_into [GoZero R] (grow : Nat → Nat → Nat) (n : Nat) (rd : Nat → GoM (CS R σ) T) (op : T → GoM σ R) (xs : List T) (hn : xs.length = n)
    (P : σ → Prop) (hP : ∀ x t y t', P t → op x t = .ok y t' → P t') (t : σ) (ht : P t) (b : Sl) (m : Mem R) (hb : b.WF m) (Src : Nat → Mem R → Prop)
    (hrd : ∀ (i : Nat) (h : i < xs.length) (m' : Mem R) (t : σ), P t → Src i m' → rd i ⟨m', t⟩ = .ok xs[i] ⟨m', t⟩)
    (hstep : ∀ (i : Nat) (m1 m2 : Mem R), i < xs.length → Src i m1 → m.top ≤ m1.top →
      (∀ k, k < m.top → (i < b.cap → k ≠ b.off + i) → m2.cell k = m1.cell k) → Src (i + 1) m2) (h0 : Src 0 m) :
    ∃ r m', transformToC grow n rd (fun x => ownState (op x)) b ⟨m, t⟩ = (callsAll op xs t).2.outcome m' r ∧ Into m b m' r (callsAll op xs t).1 := by
  have hs := Sl.slice_zero b m 0 (Nat.zero_le _)
  simp only [Int.natCast_zero] at hs
  have e0 : Sl.read m { b with len := 0 } = [] := by simp [Sl.read]
  obtain ⟨r, m', e, hr, hw, ht, hp, hf, hin⟩ := transformToLoopC_eq grow rd op xs xs m b P hP Src hrd hstep
    [] t { b with len := 0 } m rfl ht rfl ⟨Nat.zero_le _, hb.2⟩ h0 (Nat.le_refl _) (.inl ⟨rfl, rfl⟩) (fun _ _ _ => rfl) hb.2
  have hlen : r.len = (callsAll op xs t).1.length := by
    have := congrArg List.length hr
    simpa [e0] using this
  refine ⟨r, m', ?_, ⟨by rw [hr, e0]; rfl, hw, ht, ?_, ?_, hf⟩⟩
  · simp only [transformToC, GoM.bind_def, CS.on_ok (s := (⟨m, t⟩ : CS R σ)) hs, ← hn]
    simpa using e
  · intro hc
    obtain ⟨q1, q2⟩ := hin (by simpa using hc)
    exact ⟨by rw [q1]; simp, by rw [q2]; simp⟩
  · intro hc
    rcases hp with ⟨p1, p2⟩ | p
    · have := hw.1; omega
    · exact p

/-! ## Vector.RemoveIf -/

theorem Vec.removeIfC_eq [GoZero T] (cond : T → GoM (Sl × σ) Bool) (m : Mem T) (v : Sl) (t : σ) (hv : v.WF m) :
    Vec.removeIfC (fun x => ownState (cond x)) ⟨m, v, t⟩ =
      match (callsAll cond (v.read m) (v, t)).2 with
      | .done t' => .ok () ⟨m.write v.off (keptBy (v.read m) (callsAll cond (v.read m) (v, t)).1 ++
          List.replicate (v.len - (keptBy (v.read m) (callsAll cond (v.read m) (v, t)).1).length) GoZero.zero),
          { v with len := (keptBy (v.read m) (callsAll cond (v.read m) (v, t)).1).length }, t'.2⟩
      | .panicked t' => .panic ⟨m.write v.off (keptBy (v.read m) (callsAll cond (v.read m) (v, t)).1), t'⟩
      | .hung => .diverge := by
  have h := Stl4go.removeIfC_eq v cond m (v, t) hv
  have hk := keptBy_length_le (v.read m) (callsAll cond (v.read m) (v, t)).1
  generalize hks : keptBy (v.read m) (callsAll cond (v.read m) (v, t)).1 = ks at *
  simp only [Vec.removeIfC, GoM.bind_def, CS.vec, VS.recv, h]
  cases he : (callsAll cond (v.read m) (v, t)).2 with
  | panicked t' => rfl
  | hung => rfl
  | done t' =>
    simp only [CallEnd.outcome, VS.assign]
    simp only [Sl.read_length] at hk
    rw [CS.on_ok (Sl.slice_ok v _ ks.length v.len hk hv.1)]
    simp only [CS.on, fillZero, Sl.clear]
    congr 2
    rw [Mem.write_append]

end Stl4go
