import Verif.Proofs.BuiltinSetLiveOps
/-! # Loops over a set that its callback changes -/
namespace Stl4go
variable {K σ α : Type} [GoEq K]

/-- The loop over `r` that started when `b` entries had been made and has produced those in `seen` is where the walk is. -/
structure WalkRel (r : MRef) (b : Nat) (seen : List Nat) (w : LiveWorld K) (v : BWalk K) : Prop where
  rel : LRel w v.st
  start : b ≤ w.ids
  past : ∀ i ∈ seen, i < w.ids
  owed : ∀ k, v.owed k = true ↔ ∃ e ∈ w.entries r, e.id < b ∧ e.id ∉ seen ∧ GoEq.eq k e.key = true
  fresh : ∀ k, v.fresh k = true ↔ ∃ e ∈ w.entries r, b ≤ e.id ∧ e.id ∉ seen ∧ GoEq.eq k e.key = true

omit [GoEq K] in
theorem entries_below {w : LiveWorld K} (h : w.Good) (r : MRef) : ∀ e ∈ w.entries r, e.id < w.ids := by
  cases r with
  | none => intro e he; cases he
  | some j => exact h.below j

theorem WalkRel.steps {r : MRef} {b : Nat} {seen : List Nat} {w : LiveWorld K} {v : BWalk K} (h : WalkRel r b seen w v) (n : Nat) :
    WalkRel r b seen { w with steps := n } v :=
  ⟨h.rel.steps n, h.start, h.past, by cases r <;> exact h.owed, by cases r <;> exact h.fresh⟩

theorem LRel.mem {w : LiveWorld K} {st : BState K} (h : LRel w st) (r : MRef) (k : K) : st.of r k = true ↔ ∃ e ∈ w.entries r, GoEq.eq k e.key = true := by
  rw [← h.any, List.any_eq_true]

variable [LawfulGoEq K]

theorem LRel.unique {w : LiveWorld K} {st : BState K} (h : LRel w st) {r : MRef} {a b : Entry K} (ha : a ∈ w.entries r) (hb : b ∈ w.entries r)
    (hab : GoEq.eq a.key b.key = true) : a = b := unique_key (h.of r).1 geq_symm ha hb hab

omit [LawfulGoEq K] in
theorem WalkRel.begin {w : LiveWorld K} {st : BState K} (h : LRel w st) (r : MRef) : WalkRel r w.ids [] w (BWalk.start st r) := by
  refine ⟨h, Nat.le_refl _, by simp, fun k => ?_, fun k => ?_⟩
  · simp only [BWalk.start]
    rw [h.mem]
    exact ⟨fun ⟨e, he, hk⟩ => ⟨e, he, entries_below h.2 r e he, by simp, hk⟩, fun ⟨e, he, _, _, hk⟩ => ⟨e, he, hk⟩⟩
  · simp only [BWalk.start, Bool.false_eq_true, false_iff]
    rintro ⟨e, he, hb, -⟩
    have := entries_below h.2 r e he
    omega

/-- An operation while the loop is running. -/
theorem WalkRel.op {r : MRef} {b : Nat} {seen : List Nat} {w w' : LiveWorld K} {v : BWalk K} (h : WalkRel r b seen w v) {op : BOp K}
    (h' : LRel w' (v.st.step op)) (hm : Grows w w' ∨ Shrinks w w') : WalkRel r b seen w' (v.op r op) := by
  have ev : Evolves w w' := by rcases hm with g | g <;> exact g.1
  have old : ∀ e' ∈ w'.entries r, e'.id < w.ids → ∃ e ∈ w.entries r, e.id = e'.id ∧ GoEq.eq e.key e'.key = true := by
    cases r with
    | none => intro e he; cases he
    | some j => exact ev.old j
  have same : ∀ e ∈ w.entries r, ∀ e' ∈ w'.entries r, GoEq.eq e.key e'.key = true → e'.id = e.id := by
    intro e he e' he' hk
    rcases hm with g | g
    · have : ∃ e2 ∈ w'.entries r, e2.id = e.id ∧ GoEq.eq e.key e2.key = true := by
        cases r with
        | none => cases he
        | some j => exact g.2 j e he
      obtain ⟨e2, m2, i2, k2⟩ := this
      rw [h'.unique he' m2 (LawfulGoEq.trans _ _ _ (LawfulGoEq.symm _ _ hk) k2), i2]
    · have : e'.id < w.ids := by
        cases r with
        | none => cases he'
        | some j => exact g.2 j e' he'
      obtain ⟨e2, m2, i2, k2⟩ := old e' he' this
      rw [h.rel.unique he m2 (LawfulGoEq.trans _ _ _ hk (LawfulGoEq.symm _ _ k2)), i2]
  have join : ∀ {k : K} {a b : K}, GoEq.eq k a = true → GoEq.eq k b = true → GoEq.eq a b = true :=
    fun ha hb => LawfulGoEq.trans _ _ _ (LawfulGoEq.symm _ _ ha) hb
  refine ⟨h', Nat.le_trans h.start ev.ids, fun i hi => Nat.lt_of_lt_of_le (h.past i hi) ev.ids, fun k => ?_, fun k => ?_⟩
  · simp only [BWalk.op, Bool.and_eq_true]
    rw [h.owed, h'.mem]
    constructor
    · rintro ⟨⟨e, he, hb, hs, hk⟩, e', he', hk'⟩
      have := same e he e' he' (join hk hk')
      exact ⟨e', he', by rw [this]; exact hb, by rw [this]; exact hs, hk'⟩
    · rintro ⟨e', he', hb, hs, hk'⟩
      obtain ⟨e, he, hi, hk⟩ := old e' he' (Nat.lt_of_lt_of_le hb h.start)
      exact ⟨⟨e, he, by rw [hi]; exact hb, by rw [hi]; exact hs, LawfulGoEq.trans _ _ _ hk' (LawfulGoEq.symm _ _ hk)⟩, e', he', hk'⟩
  · simp only [BWalk.op, Bool.and_eq_true, Bool.or_eq_true, Bool.not_eq_true']
    rw [h.fresh, h'.mem]
    constructor
    · rintro ⟨⟨e, he, hb, hs, hk⟩ | hno, e', he', hk'⟩
      · have := same e he e' he' (join hk hk')
        exact ⟨e', he', by rw [this]; exact hb, by rw [this]; exact hs, hk'⟩
      · have hnew : w.ids ≤ e'.id := by
          refine Nat.le_of_not_lt fun hlt => ?_
          obtain ⟨e, he, hi, hk⟩ := old e' he' hlt
          have : v.st.of r k = true := (h.rel.mem r k).2 ⟨e, he, LawfulGoEq.trans _ _ _ hk' (LawfulGoEq.symm _ _ hk)⟩
          rw [hno] at this
          cases this
        exact ⟨e', he', Nat.le_trans h.start hnew, fun hs => absurd (h.past _ hs) (Nat.not_lt.2 hnew), hk'⟩
    · rintro ⟨e', he', hb, hs, hk'⟩
      refine ⟨?_, e', he', hk'⟩
      by_cases hlt : e'.id < w.ids
      · obtain ⟨e, he, hi, hk⟩ := old e' he' hlt
        exact .inl ⟨e, he, by rw [hi]; exact hb, by rw [hi]; exact hs, LawfulGoEq.trans _ _ _ hk' (LawfulGoEq.symm _ _ hk)⟩
      · right
        rcases Bool.eq_false_or_eq_true (v.st.of r k) with hv | hv
        · obtain ⟨e, he, hk⟩ := (h.rel.mem r k).1 hv
          have := same e he e' he' (join hk hk')
          have := entries_below h.rel.2 r e he
          omega
        · exact hv

/-- An entry is produced. -/
theorem WalkRel.visit {r : MRef} {b : Nat} {seen : List Nat} {w : LiveWorld K} {v : BWalk K} (h : WalkRel r b seen w v) {e : Entry K}
    (he : e ∈ w.entries r) : WalkRel r b (e.id :: seen) w (v.visit e.key) := by
  have hid : ((w.entries r).map (·.id)).Nodup := by
    cases r with
    | none => exact List.nodup_nil
    | some j => exact h.rel.2.ids j
  have key : ∀ (k : K) (x : Entry K), x ∈ w.entries r → GoEq.eq k x.key = true → ((x.id ∉ e.id :: seen) ↔ (x.id ∉ seen ∧ GoEq.eq k e.key = false)) := by
    intro k x hx hk
    rw [List.mem_cons, not_or, and_comm]
    refine and_congr Iff.rfl ?_
    constructor
    · intro hne
      rcases Bool.eq_false_or_eq_true (GoEq.eq k e.key) with hv | hv
      · exact absurd (by rw [h.rel.unique hx he (LawfulGoEq.trans _ _ _ (LawfulGoEq.symm _ _ hk) hv)]) hne
      · exact hv
    · intro hne hxe
      rw [mem_of_id hid hx he hxe] at hk
      rw [hne] at hk
      cases hk
  refine ⟨h.rel, h.start, ?_, fun k => ?_, fun k => ?_⟩
  · intro i hi
    rcases List.mem_cons.1 hi with rfl | hi
    · exact entries_below h.rel.2 r e he
    · exact h.past i hi
  · simp only [BWalk.visit, Bool.and_eq_true, Bool.not_eq_true']
    rw [h.owed]
    constructor
    · rintro ⟨⟨x, hx, hb, hs, hk⟩, hne⟩
      exact ⟨x, hx, hb, (key k x hx hk).2 ⟨hs, hne⟩, hk⟩
    · rintro ⟨x, hx, hb, hs, hk⟩
      have := (key k x hx hk).1 hs
      exact ⟨⟨x, hx, hb, this.1, hk⟩, this.2⟩
  · simp only [BWalk.visit, Bool.and_eq_true, Bool.not_eq_true']
    rw [h.fresh]
    constructor
    · rintro ⟨⟨x, hx, hb, hs, hk⟩, hne⟩
      exact ⟨x, hx, hb, (key k x hx hk).2 ⟨hs, hne⟩, hk⟩
    · rintro ⟨x, hx, hb, hs, hk⟩
      have := (key k x hx hk).1 hs
      exact ⟨⟨x, hx, hb, this.1, hk⟩, this.2⟩

/-- A callback. -/
theorem BProg.exec_ok (rt : LiveRt K) (extra : Nat) (r : MRef) (b : Nat) (seen : List Nat) (p : BProg K α) : ∀ (w : LiveWorld K) (v : BWalk K),
    WalkRel r b seen w v →
    match p.exec rt extra w with
    | .ok a w' => ∃ v', p.Runs r v (.ok a v') ∧ WalkRel r b seen w' v'
    | .panic w' => ∃ v', p.Runs r v (.panic v') ∧ WalkRel r b seen w' v'
    | .diverge => p.Runs r v .diverge := by
  induction p with
  | ret a => intro w v h; exact ⟨v, .ret a v, h⟩
  | panic => intro w v h; exact ⟨v, .panic v, h⟩
  | hang => intro w v h; exact .hang v
  | call op k ih =>
    intro w v h
    have hn : w.next = v.st.next := h.rel.1.1
    by_cases hv : op.Valid v.st.next
    · have hl : op.liveIn rt extra w = op.live rt extra w := by rw [BOp.liveIn, if_pos (by rw [hn]; exact hv)]
      rcases op.live_ok rt extra w v.st h.rel hv with ⟨o, w', e, hne, hd⟩ | ⟨w', e, hd⟩
      · have := ih o w' (v.op r op) (h.op hd.2.1 hd.2.2)
        simp only [BProg.exec, GoM.bind_def, hl, e]
        revert this
        cases (k o).exec rt extra w' with
        | ok a w2 => rintro ⟨v', h1, h2⟩; exact ⟨v', .call hv hd.1 hne h1, h2⟩
        | panic w2 => rintro ⟨v', h1, h2⟩; exact ⟨v', .call hv hd.1 hne h1, h2⟩
        | diverge => intro h1; exact .call hv hd.1 hne h1
      · simp only [BProg.exec, GoM.bind_def, hl, e]
        exact ⟨_, .callPanics hv hd.1, h.op hd.2.1 hd.2.2⟩
    · have hl : op.liveIn rt extra w = .panic w := by rw [BOp.liveIn, if_neg (by rw [hn]; exact hv)]
      simp only [BProg.exec, GoM.bind_def, hl]
      exact ⟨v, .noSuchSet hv, h⟩

/-- The loop. -/
theorem rangeLoop_ok (rt : LiveRt K) (extra : Nat) (r : MRef) (b : Nat) (cb : σ → K → BProg K (σ × Bool)) (fuel : Nat) :
    ∀ (seen : List Nat) (t : σ) (w : LiveWorld K) (v : BWalk K), WalkRel r b seen w v →
    match Live.rangeLoop rt r b (fun t k => (cb t k).exec rt extra) fuel seen t w with
    | .ok t' w' => ∃ n v', n ≤ fuel ∧ BWalk.Loop r cb n t v (some (.ok t' v')) ∧ LRel w' v'.st
    | .panic w' => ∃ n v', n ≤ fuel ∧ BWalk.Loop r cb n t v (some (.panic v')) ∧ LRel w' v'.st
    | .diverge => (∃ n, n ≤ fuel ∧ BWalk.Loop r cb n t v (some .diverge)) ∨ BWalk.Loop r cb fuel t v none := by
  induction fuel with
  | zero => intro seen t w v _; exact .inr (.running t v)
  | succ fuel ih =>
    intro seen t w v h
    rcases nextEntry_cases rt r b seen w with ⟨e, en, he, hs⟩ | ⟨en, hf⟩
    · have hc : (v.owed e.key || v.fresh e.key) = true := by
        rw [Bool.or_eq_true]
        by_cases hb : e.id < b
        · exact .inl ((h.owed _).2 ⟨e, he, hb, hs, LawfulGoEq.refl _⟩)
        · exact .inr ((h.fresh _).2 ⟨e, he, Nat.le_of_not_lt hb, hs, LawfulGoEq.refl _⟩)
      have hx := BProg.exec_ok rt extra r b (e.id :: seen) (cb t e.key) { w with steps := w.steps + 1 } (v.visit e.key) ((h.visit he).steps _)
      simp only [Live.rangeLoop, GoM.bind_def, en]
      revert hx
      cases (cb t e.key).exec rt extra { w with steps := w.steps + 1 } with
      | ok a w' =>
        obtain ⟨t', go⟩ := a
        rintro ⟨v', hr, hw⟩
        cases go with
        | false =>
          simp only [Bool.false_eq_true, if_false, GoM.pure_apply]
          exact ⟨1, v', by omega, .stop hc hr, hw.rel⟩
        | true =>
          simp only [if_true]
          have hl := ih (e.id :: seen) t' w' v' hw
          revert hl
          cases Live.rangeLoop rt r b (fun t k => (cb t k).exec rt extra) fuel (e.id :: seen) t' w' with
          | ok t2 w2 => rintro ⟨n, v2, hn, h1, h2⟩; exact ⟨n + 1, v2, by omega, .goOn hc hr h1, h2⟩
          | panic w2 => rintro ⟨n, v2, hn, h1, h2⟩; exact ⟨n + 1, v2, by omega, .goOn hc hr h1, h2⟩
          | diverge =>
            rintro (⟨n, hn, h1⟩ | h1)
            · exact .inl ⟨n + 1, by omega, .goOn hc hr h1⟩
            · exact .inr (.goOn hc hr h1)
      | panic w' => rintro ⟨v', hr, hw⟩; exact ⟨1, v', by omega, .panics hc hr, hw.rel⟩
      | diverge => intro hr; exact .inl ⟨1, by omega, .hangs hc hr⟩
    · simp only [Live.rangeLoop, GoM.bind_def, en, GoM.pure_apply]
      refine ⟨0, v, by omega, .finish fun k => ?_, h.rel.steps _⟩
      rw [← Bool.not_eq_true, h.owed]
      rintro ⟨e, he, hb, hs, -⟩
      have := hf e he hs
      omega

omit [LawfulGoEq K] in
theorem LRel.is {w : LiveWorld K} {st : BState K} (h : LRel w st) : w.Is st := by
  intro r
  funext k
  exact h.any r k

/-! ## Histories -/

omit [LawfulGoEq K] in
theorem LRel.empty : LRel (LiveWorld.empty : LiveWorld K) BState.empty := ⟨⟨rfl, fun _ => Lists.nil⟩, ⟨by simp [LiveWorld.empty], by simp [LiveWorld.empty], by simp [LiveWorld.empty]⟩⟩

theorem BOp.callLive_ok (rt : LiveRt K) (extra : Nat) (op : BOp K) (w : LiveWorld K) (st : BState K) (h : LRel w st) (hv : op.Valid st.next) :
    st.Ok op (op.callLive rt extra w).1 ∧ LRel (op.callLive rt extra w).2 (st.step op) := by
  rcases op.live_ok rt extra w st h hv with ⟨o, w', e, -, hd⟩ | ⟨w', e, hd⟩
  · simp only [BOp.callLive, e]
    exact ⟨hd.1, hd.2.1⟩
  · simp only [BOp.callLive, e]
    exact ⟨hd.1, hd.2.1⟩

theorem LiveWorld.run_ok (rt : LiveRt K) (extra : Nat) (ops : List (BOp K)) : ∀ (w : LiveWorld K) (st : BState K), LRel w st → st.Legal ops →
    st.Matches ops (w.run rt extra ops) ∧ LRel (w.after rt extra ops) (st.after ops) := by
  induction ops with
  | nil => intro w st h _; exact ⟨rfl, h⟩
  | cons op ops ih =>
    intro w st h hl
    obtain ⟨ho, hr⟩ := op.callLive_ok rt extra w st h hl.1
    obtain ⟨h1, h2⟩ := ih _ _ hr hl.2
    exact ⟨⟨_, _, rfl, ho, h1⟩, h2⟩

end Stl4go
