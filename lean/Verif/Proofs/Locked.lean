import Verif.Spec.Locked
/-! # Lemmas for C181: a lock makes calls atomic -/
namespace Stl4go
variable {σ α : Type}

theorem Serially.snoc_ret {s s' s'' : σ} {l : List (LockedCall σ α × Outcome α)} {c : LockedCall σ α} {a : α} (h : Serially s l s') (hc : c.body.run s' = .ok a s'') :
    Serially s (l ++ [(c, .ret a)]) s'' := by
  induction h with
  | nil s => exact .ret hc (.nil _)
  | ret h _ ih => exact .ret h (ih hc)
  | panic h _ ih => exact .panic h (ih hc)

theorem Serially.snoc_panic {s s' s'' : σ} {l : List (LockedCall σ α × Outcome α)} {c : LockedCall σ α} (h : Serially s l s') (hc : c.body.run s' = .panic s'') :
    Serially s (l ++ [(c, .panic)]) s'' := by
  induction h with
  | nil s => exact .panic hc (.nil _)
  | ret h _ ih => exact .ret h (ih hc)
  | panic h _ ih => exact .panic h (ih hc)

/-- What holds at all times: `s0` is the memory at the beginning, `s` the memory after the calls of the log. -/
structure LockedInv (calls : Nat → List (LockedCall σ α)) (s0 : σ) (st : LockedState σ α) (s : σ) : Prop where
  serial : Serially s0 (st.log.map (·.2)) s
  quiet : st.writer = none → st.mem = s
  wr : ∀ i c p, (st.threads i).now = some (c, p) → c.write = true → st.writer = some i ∧ p.run st.mem = c.body.run s
  rd : ∀ i c p, (st.threads i).now = some (c, p) → c.write = false → i ∈ st.readers ∧ p.run s = c.body.run s ∧ p.Reads
  held : ∀ i, st.writer = some i → st.readers = [] ∧ ∃ c p, (st.threads i).now = some (c, p) ∧ c.write = true
  back : ∀ i, i ∈ st.readers → ∃ c p, (st.threads i).now = some (c, p) ∧ c.write = false
  nodup : st.readers.Nodup
  order : ∀ i, st.completed i ++ (st.inside i).toList ++ (st.threads i).todo = calls i

variable {calls : Nat → List (LockedCall σ α)} {s0 s : σ} {st : LockedState σ α}

theorem LockedInv.init (calls : Nat → List (LockedCall σ α)) (s : σ) : LockedInv calls s (.start calls s) s where
  serial := .nil s
  quiet := fun _ => rfl
  wr := fun _ _ _ h => nomatch h
  rd := fun _ _ _ h => nomatch h
  held := fun _ h => nomatch h
  back := fun _ h => nomatch h
  nodup := List.nodup_nil
  order := fun _ => rfl

theorem LockedState.completed_snoc (l : List (Nat × LockedCall σ α × Outcome α)) (i j : Nat) (c : LockedCall σ α) (o : Outcome α) :
    ((l ++ [(i, c, o)]).filter (fun e => e.1 = j)).map (·.2.1) = (l.filter (fun e => e.1 = j)).map (·.2.1) ++ (if j = i then [c] else []) := by
  rw [List.filter_append, List.map_append]
  congr 1
  by_cases h : j = i
  · subst h; simp
  · rw [if_neg h]; simp [Ne.symm h]

/-- A goroutine that has come to an end releases the lock. -/
theorem LockedInv.release (hI : LockedInv calls s0 st s) {i : Nat} {c : LockedCall σ α} {p : Steps σ α} {o : Outcome α} {s' : σ} (hn : (st.threads i).now = some (c, p))
    (hs : Serially s0 (st.log.map (·.2) ++ [(c, o)]) s') (hm : st.mem = s') (hr : c.write = false → s' = s) : LockedInv calls s0 (st.release i c o) s' := by
  have nowi : ∀ j, ((st.release i c o).threads j).now = if j = i then none else (st.threads j).now := fun j => by
    show (if j = i then _ else _ : LockedThread σ α).now = _
    by_cases h : j = i
    · rw [if_pos h, if_pos h]
    · rw [if_neg h, if_neg h]
  have todoi : ∀ j, ((st.release i c o).threads j).todo = (st.threads j).todo := fun j => by
    show (if j = i then _ else _ : LockedThread σ α).todo = _
    by_cases h : j = i
    · rw [if_pos h, h]
    · rw [if_neg h]
  have hmem : (st.release i c o).mem = st.mem := rfl
  refine ⟨?_, fun _ => hm, fun j d q h hw => ?_, fun j d q h hw => ?_, fun j h => ?_, fun j h => ?_, ?_, fun j => ?_⟩
  · show Serially s0 ((st.log ++ [(i, c, o)]).map (·.2)) s'
    rw [List.map_append]; exact hs
  · rw [nowi] at h
    by_cases hj : j = i
    · rw [if_pos hj] at h; exact nomatch h
    · rw [if_neg hj] at h
      obtain ⟨a, b⟩ := hI.wr j d q h hw
      -- `j` holds the lock for writing, so `i` is not inside
      cases hc : c.write with
      | true => rw [(hI.wr i c p hn hc).1] at a; injection a with a; exact absurd a.symm hj
      | false =>
        have := (hI.held j a).1
        have := (hI.rd i c p hn hc).1
        rw [(hI.held j a).1] at this
        exact nomatch this
  · rw [nowi] at h
    by_cases hj : j = i
    · rw [if_pos hj] at h; exact nomatch h
    · rw [if_neg hj] at h
      obtain ⟨a, b, b'⟩ := hI.rd j d q h hw
      cases hc : c.write with
      | true =>
        have := (hI.held i (hI.wr i c p hn hc).1).1
        rw [this] at a; exact nomatch a
      | false =>
        refine ⟨?_, ?_, b'⟩
        · show j ∈ (if c.write then st.readers else st.readers.erase i)
          rw [hc]; exact (List.mem_erase_of_ne hj).2 a
        · rw [hr hc]; exact b
  · have h : (if c.write then none else st.writer) = some j := h
    cases hc : c.write with
    | true => rw [hc] at h; exact nomatch h
    | false =>
      rw [hc] at h
      have := (hI.rd i c p hn hc).1
      rw [(hI.held j h).1] at this
      exact nomatch this
  · have h : j ∈ (if c.write then st.readers else st.readers.erase i) := h
    cases hc : c.write with
    | true =>
      rw [hc, (hI.held i (hI.wr i c p hn hc).1).1] at h; exact nomatch h
    | false =>
      rw [hc] at h
      have hne : j ≠ i := fun e => by rw [e] at h; exact (List.Nodup.not_mem_erase hI.nodup) h
      obtain ⟨d, q, a, b⟩ := hI.back j (List.mem_of_mem_erase h)
      exact ⟨d, q, by rw [nowi, if_neg hne]; exact a, b⟩
  · show (if c.write then st.readers else st.readers.erase i).Nodup
    by_cases hc : c.write = true
    · rw [if_pos hc]; exact hI.nodup
    · rw [if_neg hc]; exact hI.nodup.erase i
  · have := hI.order j
    rw [todoi, LockedState.completed, LockedState.inside, nowi]
    show ((st.log ++ [(i, c, o)]).filter (fun e => e.1 = j)).map (·.2.1) ++ _ ++ _ = _
    rw [LockedState.completed_snoc, ← this, LockedState.completed, LockedState.inside]
    by_cases hj : j = i
    · rw [if_pos hj, if_pos hj, hj, hn]; simp
    · rw [if_neg hj, if_neg hj]; simp

theorem LockedState.now_put (st : LockedState σ α) (i j : Nat) (t : LockedThread σ α) : ((st.put i t).threads j) = if j = i then t else st.threads j := rfl

/-- One step. -/
theorem LockedInv.step (hr : ∀ i, ∀ c ∈ calls i, c.write = false → c.body.Reads) (hI : LockedInv calls s0 st s) (i : Nat) : ∃ s', LockedInv calls s0 (st.step i) s' := by
  unfold LockedState.step
  split
  next c a hn =>
    cases hc : c.write with
    | true =>
      have hw := (hI.wr i c _ hn hc).2
      exact ⟨st.mem, hI.release hn (hI.serial.snoc_ret hw.symm) rfl (fun e => by rw [hc] at e; exact nomatch e)⟩
    | false =>
      obtain ⟨a1, a2, _⟩ := hI.rd i c _ hn hc
      have hq : st.writer = none := by
        cases h : st.writer with
        | none => rfl
        | some j => rw [(hI.held j h).1] at a1; exact nomatch a1
      exact ⟨s, hI.release hn (hI.serial.snoc_ret a2.symm) (hI.quiet hq) (fun _ => rfl)⟩
  next c hn =>
    cases hc : c.write with
    | true =>
      have hw := (hI.wr i c _ hn hc).2
      exact ⟨st.mem, hI.release hn (hI.serial.snoc_panic hw.symm) rfl (fun e => by rw [hc] at e; exact nomatch e)⟩
    | false =>
      obtain ⟨a1, a2, _⟩ := hI.rd i c _ hn hc
      have hq : st.writer = none := by
        cases h : st.writer with
        | none => rfl
        | some j => rw [(hI.held j h).1] at a1; exact nomatch a1
      exact ⟨s, hI.release hn (hI.serial.snoc_panic a2.symm) (hI.quiet hq) (fun _ => rfl)⟩
  next c hn => exact ⟨s, hI⟩
  next c next upd hn =>
    refine ⟨s, ?_⟩
    have others : ∀ j d q, j ≠ i → (st.threads j).now = some (d, q) → c.write = true → False := fun j d q hj h hc => by
      have a := (hI.wr i c _ hn hc).1
      cases hd : d.write with
      | true => rw [(hI.wr j d q h hd).1] at a; injection a with a; exact hj a
      | false => have := (hI.rd j d q h hd).1; rw [(hI.held i a).1] at this; exact nomatch this
    have calm : c.write = false → st.writer = none ∧ st.mem = s ∧ upd st.mem = st.mem := fun hc => by
      obtain ⟨a1, _, a3⟩ := hI.rd i c _ hn hc
      have hq : st.writer = none := by
        cases h : st.writer with
        | none => rfl
        | some j => rw [(hI.held j h).1] at a1; exact nomatch a1
      exact ⟨hq, hI.quiet hq, a3.1 _⟩
    refine ⟨hI.serial, fun h => ?_, fun j d q h hw => ?_, fun j d q h hw => ?_, fun j h => ?_, fun j h => ?_, hI.nodup, fun j => ?_⟩
    · cases hc : c.write with
      | true => have h : st.writer = none := h; rw [(hI.wr i c _ hn hc).1] at h; exact nomatch h
      | false => obtain ⟨_, b, e⟩ := calm hc; show upd st.mem = s; rw [e, b]
    · have h : (if j = i then _ else st.threads j : LockedThread σ α).now = some (d, q) := h
      by_cases hj : j = i
      · rw [if_pos hj] at h
        injection h with h; injection h with h1 h2
        subst h1; subst h2
        obtain ⟨a, b⟩ := hI.wr i c _ hn hw
        exact ⟨by rw [hj]; exact a, b⟩
      · rw [if_neg hj] at h
        obtain ⟨a, b⟩ := hI.wr j d q h hw
        refine ⟨a, ?_⟩
        cases hc : c.write with
        | true => exact (others j d q hj h hc).elim
        | false => show q.run (upd st.mem) = _; rw [(calm hc).2.2]; exact b
    · have h : (if j = i then _ else st.threads j : LockedThread σ α).now = some (d, q) := h
      by_cases hj : j = i
      · rw [if_pos hj] at h
        injection h with h; injection h with h1 h2
        subst h1; subst h2
        obtain ⟨a, b, e⟩ := hI.rd i c _ hn hw
        refine ⟨by rw [hj]; exact a, ?_, e.2 _⟩
        rw [(calm hw).2.1]
        have e1 := e.1 s
        rw [← b]
        show (next s).run s = (next s).run (upd s)
        rw [e1]
      · rw [if_neg hj] at h
        exact hI.rd j d q h hw
    · obtain ⟨a, d, q, b, e⟩ := hI.held j h
      refine ⟨a, ?_⟩
      by_cases hj : j = i
      · subst hj
        rw [hn] at b; injection b with b; injection b with b1 b2
        exact ⟨c, next st.mem, by show (if j = j then _ else _ : LockedThread σ α).now = _; rw [if_pos rfl], b1 ▸ e⟩
      · exact ⟨d, q, by show (if j = i then _ else _ : LockedThread σ α).now = _; rw [if_neg hj]; exact b, e⟩
    · obtain ⟨d, q, b, e⟩ := hI.back j h
      by_cases hj : j = i
      · subst hj
        rw [hn] at b; injection b with b; injection b with b1 b2
        exact ⟨c, next st.mem, by show (if j = j then _ else _ : LockedThread σ α).now = _; rw [if_pos rfl], b1 ▸ e⟩
      · exact ⟨d, q, by show (if j = i then _ else _ : LockedThread σ α).now = _; rw [if_neg hj]; exact b, e⟩
    · have := hI.order j
      show st.completed j ++ (((if j = i then _ else st.threads j : LockedThread σ α).now).map (·.1)).toList ++ (if j = i then _ else st.threads j : LockedThread σ α).todo = _
      rw [← this, LockedState.inside]
      by_cases hj : j = i
      · rw [if_pos hj, hj, hn]; rfl
      · rw [if_neg hj]
  next hn =>
    split
    next ht => exact ⟨s, hI⟩
    next c rest ht =>
      have hmem : c ∈ calls i := by rw [← hI.order i, ht]; simp
      have ord : ∀ st' : LockedState σ α, st'.log = st.log → (∀ j, st'.threads j = if j = i then { todo := rest, now := some (c, c.body) } else st.threads j) →
          ∀ j, st'.completed j ++ (st'.inside j).toList ++ (st'.threads j).todo = calls j := fun st' e1 e2 j => by
        rw [← hI.order j, LockedState.completed, LockedState.inside, LockedState.completed, LockedState.inside, e1, e2]
        by_cases hj : j = i
        · rw [if_pos hj, hj, hn, ht]; simp
        · rw [if_neg hj]
      refine ⟨s, ?_⟩
      unfold LockedState.acquire
      by_cases hc : c.write = true
      · rw [if_pos hc]
        by_cases hf : (st.writer.isNone && st.readers.isEmpty) = true
        · rw [if_pos hf]
          rw [Bool.and_eq_true] at hf
          have hq : st.writer = none := Option.isNone_iff_eq_none.1 hf.1
          have hq' : st.readers = [] := List.isEmpty_iff.1 hf.2
          have alone : ∀ j d q, (st.threads j).now = some (d, q) → False := fun j d q h => by
            cases hd : d.write with
            | true => have := (hI.wr j d q h hd).1; rw [hq] at this; exact nomatch this
            | false => have := (hI.rd j d q h hd).1; rw [hq'] at this; exact nomatch this
          refine ⟨hI.serial, fun h => (nomatch h), fun j d q h hw => ?_, fun j d q h hw => ?_, fun j h => ?_, fun j h => ?_, hI.nodup, ord _ rfl (fun j => rfl)⟩
          · have h : (if j = i then _ else st.threads j : LockedThread σ α).now = some (d, q) := h
            by_cases hj : j = i
            · rw [if_pos hj] at h
              injection h with h; injection h with h1 h2
              subst h1; subst h2
              exact ⟨by rw [hj], by show c.body.run st.mem = _; rw [hI.quiet hq]⟩
            · rw [if_neg hj] at h; exact (alone j d q h).elim
          · have h : (if j = i then _ else st.threads j : LockedThread σ α).now = some (d, q) := h
            by_cases hj : j = i
            · rw [if_pos hj] at h
              injection h with h; injection h with h1 h2
              subst h1; rw [hc] at hw; exact nomatch hw
            · rw [if_neg hj] at h; exact (alone j d q h).elim
          · injection h with h
            subst h
            exact ⟨hq', c, c.body, by show (if i = i then _ else _ : LockedThread σ α).now = _; rw [if_pos rfl], hc⟩
          · have h : j ∈ st.readers := h
            rw [hq'] at h; exact nomatch h
        · rw [if_neg hf]; exact hI
      · rw [if_neg hc]
        have hc : c.write = false := by cases h : c.write <;> simp_all
        by_cases hf : st.writer.isNone = true
        · rw [if_pos hf]
          have hq : st.writer = none := Option.isNone_iff_eq_none.1 hf
          refine ⟨hI.serial, fun _ => hI.quiet hq, fun j d q h hw => ?_, fun j d q h hw => ?_, fun j h => ?_, fun j h => ?_, ?_, ord _ rfl (fun j => rfl)⟩
          · have h : (if j = i then _ else st.threads j : LockedThread σ α).now = some (d, q) := h
            by_cases hj : j = i
            · rw [if_pos hj] at h
              injection h with h; injection h with h1 h2
              subst h1; rw [hc] at hw; exact nomatch hw
            · rw [if_neg hj] at h; exact hI.wr j d q h hw
          · have h : (if j = i then _ else st.threads j : LockedThread σ α).now = some (d, q) := h
            by_cases hj : j = i
            · rw [if_pos hj] at h
              injection h with h; injection h with h1 h2
              subst h1; subst h2
              exact ⟨by rw [hj]; exact List.mem_cons_self, rfl, hr i c hmem hc⟩
            · rw [if_neg hj] at h
              obtain ⟨a, b⟩ := hI.rd j d q h hw
              exact ⟨List.mem_cons_of_mem _ a, b⟩
          · have h : st.writer = some j := h
            rw [hq] at h; exact nomatch h
          · rcases List.mem_cons.1 h with rfl | h
            · exact ⟨c, c.body, by show (if j = j then _ else _ : LockedThread σ α).now = _; rw [if_pos rfl], hc⟩
            · obtain ⟨d, q, b, e⟩ := hI.back j h
              have hj : j ≠ i := fun e => by rw [e, hn] at b; exact nomatch b
              exact ⟨d, q, by show (if j = i then _ else _ : LockedThread σ α).now = _; rw [if_neg hj]; exact b, e⟩
          · refine List.nodup_cons.2 ⟨fun h => ?_, hI.nodup⟩
            obtain ⟨d, q, b, e⟩ := hI.back i h
            rw [hn] at b; exact nomatch b
        · rw [if_neg hf]; exact hI

theorem LockedInv.exec (hr : ∀ i, ∀ c ∈ calls i, c.write = false → c.body.Reads) (hI : LockedInv calls s0 st s) (schedule : List Nat) :
    ∃ s', LockedInv calls s0 (st.exec schedule) s' := by
  induction schedule generalizing st s with
  | nil => exact ⟨s, hI⟩
  | cons i schedule ih =>
    obtain ⟨s', h⟩ := hI.step hr i
    exact ih h

/-! ## Progress -/

theorem LockedState.exec_append (st : LockedState σ α) (a b : List Nat) : st.exec (a ++ b) = (st.exec a).exec b := List.foldl_append

/-- The log only grows, at its end. -/
theorem LockedState.log_grows (st : LockedState σ α) (more : List Nat) : st.log <+: (st.exec more).log := by
  induction more generalizing st with
  | nil => exact List.prefix_refl _
  | cons i more ih =>
    refine List.IsPrefix.trans ?_ (ih (st.step i))
    unfold LockedState.step
    split
    · exact List.prefix_append _ _
    · exact List.prefix_append _ _
    · exact List.prefix_refl _
    · exact List.prefix_refl _
    · split
      · exact List.prefix_refl _
      · unfold LockedState.acquire
        split
        · split <;> exact List.prefix_refl _
        · split <;> exact List.prefix_refl _

/-- A goroutine that holds the lock comes to its end, if nothing else is let run. -/
theorem LockedState.drain (p : Steps σ α) (st : LockedState σ α) (i : Nat) (c : LockedCall σ α) (hn : (st.threads i).now = some (c, p)) (hd : p.run st.mem ≠ .diverge) :
    ∃ k, ((st.exec (List.replicate k i)).threads i).now = none ∧ ((st.exec (List.replicate k i)).threads i).todo = (st.threads i).todo ∧
      ∀ j, j ≠ i → (st.exec (List.replicate k i)).threads j = st.threads j := by
  induction p generalizing st with
  | ret a =>
    refine ⟨1, ?_⟩
    have e : st.exec (List.replicate 1 i) = st.release i c (.ret a) := by
      show st.step i = _
      simp only [LockedState.step, hn]
    rw [e]
    refine ⟨?_, ?_, fun j hj => ?_⟩
    · show (if i = i then _ else _ : LockedThread σ α).now = _; rw [if_pos rfl]
    · show (if i = i then _ else _ : LockedThread σ α).todo = _; rw [if_pos rfl]
    · show (if j = i then _ else _ : LockedThread σ α) = _; rw [if_neg hj]
  | panic =>
    refine ⟨1, ?_⟩
    have e : st.exec (List.replicate 1 i) = st.release i c .panic := by
      show st.step i = _
      simp only [LockedState.step, hn]
    rw [e]
    refine ⟨?_, ?_, fun j hj => ?_⟩
    · show (if i = i then _ else _ : LockedThread σ α).now = _; rw [if_pos rfl]
    · show (if i = i then _ else _ : LockedThread σ α).todo = _; rw [if_pos rfl]
    · show (if j = i then _ else _ : LockedThread σ α) = _; rw [if_neg hj]
  | diverge => exact absurd rfl hd
  | act next upd ih =>
    have e : st.step i = { st.put i { todo := (st.threads i).todo, now := some (c, next st.mem) } with mem := upd st.mem } := by simp only [LockedState.step, hn]
    have ti : (st.step i).threads i = { todo := (st.threads i).todo, now := some (c, next st.mem) } := by
      rw [e]; show (if i = i then _ else _ : LockedThread σ α) = _; rw [if_pos rfl]
    have tj : ∀ j, j ≠ i → (st.step i).threads j = st.threads j := fun j hj => by
      rw [e]; show (if j = i then _ else _ : LockedThread σ α) = _; rw [if_neg hj]
    obtain ⟨k, a, b, d⟩ := ih st.mem (st.step i) (by rw [ti]) (by rw [e]; exact hd)
    refine ⟨k + 1, ?_⟩
    have : st.exec (List.replicate (k + 1) i) = (st.step i).exec (List.replicate k i) := rfl
    rw [this]
    exact ⟨a, by rw [b, ti], fun j hj => by rw [d j hj, tj j hj]⟩

/-- The state between calls keeps a property that every call keeps. -/
theorem Serially.keeps {J : σ → Prop} {s s' : σ} {l : List (LockedCall σ α × Outcome α)} (h : Serially s l s')
    (hJ : ∀ e ∈ l, ∀ s, J s → (e.1.body.run s).Ends J) (h0 : J s) : J s' := by
  induction h with
  | nil s => exact h0
  | ret h _ ih =>
    have j := hJ _ List.mem_cons_self _ h0
    rw [h] at j
    exact ih (fun e he => hJ e (List.mem_cons_of_mem _ he)) j
  | panic h _ ih =>
    have j := hJ _ List.mem_cons_self _ h0
    rw [h] at j
    exact ih (fun e he => hJ e (List.mem_cons_of_mem _ he)) j

theorem LockedInv.log_mem (hI : LockedInv calls s0 st s) {e : Nat × LockedCall σ α × Outcome α} (he : e ∈ st.log) : e.2.1 ∈ calls e.1 := by
  rw [← hI.order e.1, LockedState.completed]
  refine List.mem_append_left _ (List.mem_append_left _ (List.mem_map.2 ⟨e, List.mem_filter.2 ⟨he, by simp⟩, rfl⟩))

theorem LockedInv.keeps {J : σ → Prop} (hI : LockedInv calls s0 st s) (hJ : ∀ i, ∀ c ∈ calls i, ∀ s, J s → (c.body.run s).Ends J) (h0 : J s0) : J s :=
  hI.serial.keeps (fun e he => by
    obtain ⟨x, hx, rfl⟩ := List.mem_map.1 he
    exact hJ x.1 _ (hI.log_mem hx)) h0

/-- A goroutine that is inside can come to its end. -/
theorem LockedInv.run_free {J : σ → Prop} (hI : LockedInv calls s0 st s) (hJ : ∀ i, ∀ c ∈ calls i, ∀ s, J s → (c.body.run s).Ends J) (h0 : J s0)
    {i : Nat} {c : LockedCall σ α} {p : Steps σ α} (hn : (st.threads i).now = some (c, p)) : p.run st.mem ≠ .diverge := by
  have hm : c ∈ calls i := by rw [← hI.order i, LockedState.inside, hn]; simp
  have e : c.body.run s ≠ .diverge := fun e => by
    have := hJ i c hm s (hI.keeps hJ h0)
    rw [e] at this
    exact this
  cases hc : c.write with
  | true => rw [(hI.wr i c p hn hc).2]; exact e
  | false =>
    obtain ⟨a1, a2, _⟩ := hI.rd i c p hn hc
    have hq : st.writer = none := by
      cases h : st.writer with
      | none => rfl
      | some j => rw [(hI.held j h).1] at a1; exact nomatch a1
    rw [hI.quiet hq, a2]; exact e

/-- If nobody is inside, goroutine `i` can make its calls one after the other. -/
theorem LockedInv.solo {J : σ → Prop} (hr : ∀ i, ∀ c ∈ calls i, c.write = false → c.body.Reads)
    (hJ : ∀ i, ∀ c ∈ calls i, ∀ s, J s → (c.body.run s).Ends J) (h0 : J s0) (i : Nat) (todo : List (LockedCall σ α)) :
    ∀ (st : LockedState σ α) (s : σ), LockedInv calls s0 st s → (st.threads i).todo = todo → (∀ j, (st.threads j).now = none) →
      ∃ k, (st.exec k).threads i = ⟨[], none⟩ ∧ ∀ j, j ≠ i → (st.exec k).threads j = st.threads j := by
  induction todo with
  | nil =>
    intro st s hI ht hn
    refine ⟨[], ?_, fun j _ => rfl⟩
    show st.threads i = _
    have h1 := hn i
    cases h : st.threads i with
    | mk t n => rw [h] at ht h1; simp only at ht h1; rw [ht, h1]
  | cons c rest ih =>
    intro st s hI ht hn
    have hq : st.writer = none := by
      cases h : st.writer with
      | none => rfl
      | some j => obtain ⟨_, d, q, a, _⟩ := hI.held j h; rw [hn j] at a; exact nomatch a
    have hq' : st.readers = [] := by
      cases h : st.readers with
      | nil => rfl
      | cons j l => obtain ⟨d, q, a, _⟩ := hI.back j (by rw [h]; exact List.mem_cons_self); rw [hn j] at a; exact nomatch a
    have e : (st.step i).threads = (st.put i { todo := rest, now := some (c, c.body) }).threads := by
      simp only [LockedState.step, hn i, ht, LockedState.acquire, hq, hq']
      by_cases hc : c.write = true
      · rw [if_pos hc, if_pos (by rfl)]
      · rw [if_neg hc, if_pos (by rfl)]
    have ti : (st.step i).threads i = { todo := rest, now := some (c, c.body) } := by
      rw [e]; show (if i = i then _ else _ : LockedThread σ α) = _; rw [if_pos rfl]
    have tj : ∀ j, j ≠ i → (st.step i).threads j = st.threads j := fun j hj => by
      rw [e]; show (if j = i then _ else _ : LockedThread σ α) = _; rw [if_neg hj]
    obtain ⟨s1, h1⟩ := hI.step hr i
    obtain ⟨k, a, b, d⟩ := LockedState.drain c.body (st.step i) i c (by rw [ti]) (h1.run_free hJ h0 (by rw [ti]))
    obtain ⟨s2, h2⟩ := h1.exec hr (List.replicate k i)
    obtain ⟨k', f, g⟩ := ih _ s2 h2 (by rw [b, ti]) (fun j => by
      by_cases hj : j = i
      · rw [hj, a]
      · rw [d j hj, tj j hj, hn j])
    refine ⟨i :: (List.replicate k i ++ k'), ?_, fun j hj => ?_⟩
    · show (((st.step i).exec (List.replicate k i ++ k')).threads i) = _
      rw [LockedState.exec_append, f]
    · show (((st.step i).exec (List.replicate k i ++ k')).threads j) = _
      rw [LockedState.exec_append, g j hj, d j hj, tj j hj]

/-- All goroutines can leave the calls they are in. -/
theorem LockedInv.leave {J : σ → Prop} (hr : ∀ i, ∀ c ∈ calls i, c.write = false → c.body.Reads)
    (hJ : ∀ i, ∀ c ∈ calls i, ∀ s, J s → (c.body.run s).Ends J) (h0 : J s0) (is : List Nat) :
    ∀ (st : LockedState σ α) (s : σ), LockedInv calls s0 st s → ∃ k, (∀ i ∈ is, ((st.exec k).threads i).now = none) ∧ ∀ i, (st.threads i).now = none → ((st.exec k).threads i).now = none := by
  induction is with
  | nil => exact fun st s hI => ⟨[], fun i h => absurd h List.not_mem_nil, fun i h => h⟩
  | cons i is ih =>
    intro st s hI
    obtain ⟨k, a, b⟩ : ∃ k, ((st.exec k).threads i).now = none ∧ ∀ j, (st.threads j).now = none → ((st.exec k).threads j).now = none := by
      cases h : (st.threads i).now with
      | none => exact ⟨[], h, fun j hj => hj⟩
      | some cp =>
        obtain ⟨k, a, _, d⟩ := LockedState.drain cp.2 st i cp.1 h (hI.run_free hJ h0 h)
        refine ⟨_, a, fun j hj => ?_⟩
        rw [d j (fun e => by rw [e, h] at hj; exact nomatch hj)]; exact hj
    obtain ⟨s', h'⟩ := hI.exec hr k
    obtain ⟨k', c, d⟩ := ih _ s' h'
    refine ⟨k ++ k', fun j hj => ?_, fun j hj => ?_⟩
    · rw [LockedState.exec_append]
      rcases List.mem_cons.1 hj with rfl | hj
      · exact d _ a
      · exact c j hj
    · rw [LockedState.exec_append]; exact d _ (b j hj)

/-- And then make all their calls. -/
theorem LockedInv.rest {J : σ → Prop} (hr : ∀ i, ∀ c ∈ calls i, c.write = false → c.body.Reads)
    (hJ : ∀ i, ∀ c ∈ calls i, ∀ s, J s → (c.body.run s).Ends J) (h0 : J s0) (is : List Nat) :
    ∀ (st : LockedState σ α) (s : σ), LockedInv calls s0 st s → (∀ j, (st.threads j).now = none) →
      ∃ k, (∀ i ∈ is, (st.exec k).threads i = ⟨[], none⟩) ∧ (∀ i, (st.threads i) = ⟨[], none⟩ → (st.exec k).threads i = ⟨[], none⟩) ∧ ∀ j, ((st.exec k).threads j).now = none := by
  induction is with
  | nil => exact fun st s hI hn => ⟨[], fun i h => absurd h List.not_mem_nil, fun i h => h, hn⟩
  | cons i is ih =>
    intro st s hI hn
    obtain ⟨k, a, b⟩ := LockedInv.solo hr hJ h0 i _ st s hI rfl hn
    obtain ⟨s', h'⟩ := hI.exec hr k
    obtain ⟨k', c, d, e⟩ := ih _ s' h' (fun j => by
      by_cases hj : j = i
      · rw [hj, a]
      · rw [b j hj, hn j])
    refine ⟨k ++ k', fun j hj => ?_, fun j hj => ?_, fun j => ?_⟩
    · rw [LockedState.exec_append]
      rcases List.mem_cons.1 hj with rfl | hj
      · exact d _ a
      · exact c j hj
    · rw [LockedState.exec_append]
      by_cases hj' : j = i
      · exact d j (hj' ▸ a)
      · exact d j (by rw [b j hj']; exact hj)
    · rw [LockedState.exec_append]; exact e j

end Stl4go
