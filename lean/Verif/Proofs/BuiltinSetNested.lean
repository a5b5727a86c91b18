import Verif.Spec.BuiltinSetNested
import Verif.Proofs.BuiltinSetLiveTame
/-! # Lemmas about loops over maps inside one another -/
namespace Stl4go
variable {K σ α : Type} [GoEq K]

/-- A running loop of the model: its set, the number of entries when it started, the entries produced. -/
abbrev LoopAt := MRef × Nat × List Nat

/-- Every loop that is running is where the specification says. -/
def Framed (w : LiveWorld K) (st : BState K) : List LoopAt → List (NFrame K) → Prop
  | [], [] => True
  | c :: cs, f :: fs => (f.r = c.1 ∧ WalkRel f.r c.2.1 c.2.2 w ⟨st, f.owed, f.fresh⟩) ∧ Framed w st cs fs
  | _, _ => False

theorem Framed.steps {w : LiveWorld K} {st : BState K} (n : Nat) : ∀ {cs : List LoopAt} {fs : List (NFrame K)}, Framed w st cs fs →
    Framed { w with steps := n } st cs fs
  | [], [], _ => trivial
  | _ :: _, _ :: _, h => ⟨⟨h.1.1, h.1.2.steps n⟩, Framed.steps n h.2⟩
  | [], _ :: _, h => h.elim
  | _ :: _, [], h => h.elim

variable [LawfulGoEq K]

theorem Framed.op {w w' : LiveWorld K} {st : BState K} {op : BOp K} (h' : LRel w' (st.step op)) (hm : Grows w w' ∨ Shrinks w w') :
    ∀ {cs : List LoopAt} {fs : List (NFrame K)}, Framed w st cs fs → Framed w' (st.step op) cs (fs.map (NFrame.op st op))
  | [], [], _ => trivial
  | _ :: _, _ :: _, h => ⟨⟨h.1.1, h.1.2.op h' hm⟩, Framed.op h' hm h.2⟩
  | [], _ :: _, h => h.elim
  | _ :: _, [], h => h.elim

omit [LawfulGoEq K] in
/-- The innermost loop. -/
theorem Framed.top {w : LiveWorld K} {st : BState K} {c : LoopAt} {cs : List LoopAt} {fs : List (NFrame K)} (h : Framed w st (c :: cs) fs) :
    ∃ f fs', fs = f :: fs' ∧ f.r = c.1 ∧ WalkRel f.r c.2.1 c.2.2 w ⟨st, f.owed, f.fresh⟩ ∧ Framed w st cs fs' := by
  cases fs with
  | nil => exact h.elim
  | cons f fs => exact ⟨f, fs, rfl, h.1.1, h.1.2, h.2⟩

/-- The model and the specification are in corresponding states. -/
structure NRel (cs : List LoopAt) (w : LiveWorld K) (v : NState K) : Prop where
  rel : LRel w v.st
  loops : Framed w v.st cs v.loops

/-- What it means that a run is allowed. -/
def Allowed (cs : List LoopAt) (R : NState K → Res (NState K) α → Prop) (v : NState K) : Res (LiveWorld K) α → Prop
  | .ok a w' => ∃ v', R v (.ok a v') ∧ NRel cs w' v'
  | .panic w' => ∃ v', R v (.panic v') ∧ LRel w' v'.st
  | .diverge => R v .diverge

theorem nrangeLoop_ok (rt : LiveRt K) (r : MRef) (b : Nat) (body : σ → K → GoM (LiveWorld K) (σ × Bool)) (R : σ → K → NState K → Res (NState K) (σ × Bool) → Prop)
    (hbody : ∀ cs t k w v, NRel cs w v → Allowed cs (R t k) v (body t k w)) (cs : List LoopAt) (fuel : Nat) :
    ∀ (seen : List Nat) (t : σ) (w : LiveWorld K) (v : NState K), NRel ((r, b, seen) :: cs) w v →
    match Live.rangeLoop rt r b body fuel seen t w with
    | .ok t' w' => ∃ n v', NLoop R n t v (some (.ok t' v')) ∧ NRel cs w' v'.leave
    | .panic w' => ∃ n v', NLoop R n t v (some (.panic v')) ∧ LRel w' v'.st
    | .diverge => (∃ n, NLoop R n t v (some .diverge)) ∨ NLoop R fuel t v none := by
  induction fuel with
  | zero => intro seen t w v _; exact .inr (.running t v)
  | succ fuel ih =>
    intro seen t w v hrel
    obtain ⟨f, fs, hfs, hr, h, hrest⟩ := hrel.loops.top
    obtain ⟨fr, fo, ff⟩ := f
    simp only at hr h
    subst hr
    have leave : ∀ {seen : List Nat} {w' : LiveWorld K} {v' : NState K}, NRel ((fr, b, seen) :: cs) w' v' → NRel cs w' v'.leave := by
      intro seen w' v' h'
      obtain ⟨f', fs', e', _, _, h2⟩ := h'.loops.top
      refine ⟨h'.rel, ?_⟩
      show Framed w' v'.st cs v'.loops.tail
      rw [e']
      exact h2
    rcases nextEntry_cases rt fr b seen w with ⟨e, en, he, hs⟩ | ⟨en, hf⟩
    · have hc : v.May e.key := by
        refine ⟨_, _, hfs, ?_⟩
        rw [Bool.or_eq_true]
        by_cases hb : e.id < b
        · exact .inl ((h.owed _).2 ⟨e, he, hb, hs, LawfulGoEq.refl _⟩)
        · exact .inr ((h.fresh _).2 ⟨e, he, Nat.le_of_not_lt hb, hs, LawfulGoEq.refl _⟩)
      have hv : NRel ((fr, b, e.id :: seen) :: cs) { w with steps := w.steps + 1 } (v.visit e.key) := by
        refine ⟨hrel.rel.steps _, ?_⟩
        unfold NState.visit
        simp only [hfs]
        exact ⟨⟨rfl, (h.visit he).steps _⟩, hrest.steps _⟩
      have hx := hbody _ t e.key _ _ hv
      simp only [Live.rangeLoop, GoM.bind_def, en]
      revert hx
      cases body t e.key { w with steps := w.steps + 1 } with
      | ok a w' =>
        obtain ⟨t', go⟩ := a
        rintro ⟨v', hr, hw⟩
        cases go with
        | false =>
          simp only [Bool.false_eq_true, if_false, GoM.pure_apply]
          exact ⟨1, v', .stop hc hr, leave hw⟩
        | true =>
          simp only [if_true]
          have hl := ih (e.id :: seen) t' w' v' hw
          revert hl
          cases Live.rangeLoop rt fr b body fuel (e.id :: seen) t' w' with
          | ok t2 w2 => rintro ⟨n, v2, h1, h2⟩; exact ⟨n + 1, v2, .goOn hc hr h1, h2⟩
          | panic w2 => rintro ⟨n, v2, h1, h2⟩; exact ⟨n + 1, v2, .goOn hc hr h1, h2⟩
          | diverge =>
            rintro (⟨n, h1⟩ | h1)
            · exact .inl ⟨n + 1, .goOn hc hr h1⟩
            · exact .inr (.goOn hc hr h1)
      | panic w' => rintro ⟨v', hr, hw⟩; exact ⟨1, v', .panics hc hr, hw⟩
      | diverge => intro hr; exact .inl ⟨1, .hangs hc hr⟩
    · simp only [Live.rangeLoop, GoM.bind_def, en, GoM.pure_apply]
      refine ⟨0, v, .finish ⟨_, _, hfs, fun k => ?_⟩, leave ⟨hrel.rel.steps _, hrel.loops.steps _⟩⟩
      rw [← Bool.not_eq_true, h.owed]
      rintro ⟨e, he, hb, hs, -⟩
      have := hf e he hs
      omega

omit [LawfulGoEq K] in
theorem NProg.runs_each {extra : Nat} {r : MRef} {cb : σ → K → NProg K (σ × Bool)} {t : σ} {k : σ → NProg K α} {v : NState K} {res : Res (NState K) α}
    (hv : RefOk v.st.next r) {n : Nat} {x : Option (Res (NState K) σ)} (hl : NLoop (fun t x => (cb t x).Runs extra) n t (v.enter r) x)
    (hx : match (generalizing := false) x with
      | some (.ok t' v') => (k t').Runs extra v'.leave res
      | some (.panic v') => res = .panic v'
      | some .diverge => res = .diverge
      | none => res = .diverge ∧ ∃ m : Nat, HasSize (v.st.of r) m ∧ n = m + extra + 1) : (NProg.each r cb t k).Runs extra v res := by
  rw [NProg.Runs]
  exact .inl ⟨hv, n, x, hl, hx⟩

/-- Every run of a program is allowed. -/
theorem NProg.exec_ok (rt : LiveRt K) (extra : Nat) {α : Type} (p : NProg K α) : ∀ (cs : List LoopAt) (w : LiveWorld K) (v : NState K), NRel cs w v →
    Allowed cs (p.Runs extra) v (p.exec rt extra w) := by
  induction p with
  | ret a => intro cs w v h; exact ⟨v, rfl, h⟩
  | panic => intro cs w v h; exact ⟨v, rfl, h.rel⟩
  | hang => intro cs w v h; exact rfl
  | call op k ih =>
    intro cs w v h
    have hn : w.next = v.st.next := h.rel.1.1
    by_cases hv : op.Valid v.st.next
    · have hl : op.liveIn rt extra w = op.live rt extra w := by rw [BOp.liveIn, if_pos (by rw [hn]; exact hv)]
      rcases op.live_ok rt extra w v.st h.rel hv with ⟨o, w', e, hne, hd⟩ | ⟨w', e, hd⟩
      · have := ih o cs w' (v.op op) ⟨hd.2.1, h.loops.op hd.2.1 hd.2.2⟩
        simp only [NProg.exec, GoM.bind_def, hl, e]
        revert this
        cases (k o).exec rt extra w' with
        | ok a w2 => rintro ⟨v', h1, h2⟩; exact ⟨v', .inl ⟨hv, o, hd.1, .inl ⟨hne, h1⟩⟩, h2⟩
        | panic w2 => rintro ⟨v', h1, h2⟩; exact ⟨v', .inl ⟨hv, o, hd.1, .inl ⟨hne, h1⟩⟩, h2⟩
        | diverge => intro h1; exact .inl ⟨hv, o, hd.1, .inl ⟨hne, h1⟩⟩
      · simp only [NProg.exec, GoM.bind_def, hl, e]
        exact ⟨v.op op, .inl ⟨hv, _, hd.1, .inr ⟨rfl, rfl⟩⟩, hd.2.1⟩
    · have hl : op.liveIn rt extra w = .panic w := by rw [BOp.liveIn, if_neg (by rw [hn]; exact hv)]
      simp only [NProg.exec, GoM.bind_def, hl]
      exact ⟨v, .inr ⟨hv, rfl⟩, h.rel⟩
  | each r cb t k ihb ihk =>
    intro cs w v h
    have hn : w.next = v.st.next := h.rel.1.1
    by_cases hv : RefOk v.st.next r
    · have hs : NRel ((r, w.ids, []) :: cs) w (v.enter r) := ⟨h.rel, ⟨rfl, WalkRel.begin h.rel r⟩, h.loops⟩
      have hl := nrangeLoop_ok rt r w.ids (fun t x => (cb t x).exec rt extra) (fun t x => (cb t x).Runs extra)
        (fun cs t x w v h => ihb t x cs w v h) cs ((w.entries r).length + extra + 1) [] t w (v.enter r) hs
      have hw : RefOk w.next r := by rw [hn]; exact hv
      simp only [NProg.exec, if_pos hw, GoM.bind_def, Live.forEachIf, Live.range]
      revert hl
      cases Live.rangeLoop rt r w.ids (fun t x => (cb t x).exec rt extra) ((w.entries r).length + extra + 1) [] t w with
      | ok t' w' =>
        rintro ⟨n, v', h1, h2⟩
        have := ihk t' cs w' v'.leave h2
        simp only
        revert this
        cases (k t').exec rt extra w' with
        | ok a w2 => rintro ⟨v2, h3, h4⟩; exact ⟨v2, NProg.runs_each hv h1 h3, h4⟩
        | panic w2 => rintro ⟨v2, h3, h4⟩; exact ⟨v2, NProg.runs_each hv h1 h3, h4⟩
        | diverge => intro h3; exact NProg.runs_each hv h1 h3
      | panic w' =>
        rintro ⟨n, v', h1, h2⟩
        exact ⟨v', NProg.runs_each hv h1 rfl, h2⟩
      | diverge =>
        rintro (⟨n, h1⟩ | h1)
        · exact NProg.runs_each hv h1 rfl
        · exact NProg.runs_each hv h1 ⟨rfl, (w.entries r).length, ⟨_, h.rel.of r, by rw [List.length_map]⟩, rfl⟩
    · have hw : ¬ RefOk w.next r := by rw [hn]; exact hv
      simp only [NProg.exec, if_neg hw]
      exact ⟨v, by rw [NProg.Runs]; exact .inr ⟨hv, rfl⟩, h.rel⟩

/-! ## Programs that end -/

/-- The sets in `rs` have no new entries. -/
def NoNew (rs : List MRef) (w w' : LiveWorld K) : Prop := ∀ r ∈ rs, ∀ e' ∈ w'.entries r, ∃ e ∈ w.entries r, e.id = e'.id

omit [GoEq K] [LawfulGoEq K] in
theorem NoNew.trans {rs : List MRef} {w w' w'' : LiveWorld K} (h : NoNew rs w w') (h' : NoNew rs w' w'') : NoNew rs w w'' := by
  intro r hr e he
  obtain ⟨e1, m1, i1⟩ := h' r hr e he
  obtain ⟨e2, m2, i2⟩ := h r hr e1 m1
  exact ⟨e2, m2, i2.trans i1⟩

omit [GoEq K] [LawfulGoEq K] in
theorem NoNew.steps (rs : List MRef) (w : LiveWorld K) (n : Nat) : NoNew rs w { w with steps := n } := by
  intro r _ e he
  cases r <;> exact ⟨e, he, rfl⟩

theorem NoNew.op {rs : List MRef} {w w' : LiveWorld K} {st : BState K} {op : BOp K} (h : LRel w st) (h' : LRel w' (st.step op)) (hm : Grows w w' ∨ Shrinks w w')
    (hr : ∀ r ∈ rs, RefOk st.next r) (ha : ∀ r ∈ rs, op.adds r = false) : NoNew rs w w' := by
  intro r hrs e' he'
  have hw := (WalkRel.begin h r).op h' hm
  have hlt : e'.id < w.ids := by
    refine Nat.lt_of_not_le fun hle => ?_
    have hf := (hw.fresh e'.key).2 ⟨e', he', hle, by simp, LawfulGoEq.refl _⟩
    simp only [BWalk.op, BWalk.start, Bool.false_or, Bool.and_eq_true, Bool.not_eq_true'] at hf
    rw [st.step_sub op r (hr r hrs) (ha r hrs) _ hf.2] at hf
    cases hf.1
  have ev : Evolves w w' := by rcases hm with g | g <;> exact g.1
  cases r with
  | none => cases he'
  | some j =>
    obtain ⟨e, m, i, _⟩ := ev.old j e' he' hlt
    exact ⟨e, m, i⟩

/-- A run that ends, in a state from which the sets in `rs` have no new entries. -/
def Settles (rs : List MRef) (w : LiveWorld K) (st : BState K) : Res (LiveWorld K) α → Prop
  | .ok _ w' => ∃ st', LRel w' st' ∧ st.next ≤ st'.next ∧ NoNew rs w w'
  | .panic w' => ∃ st', LRel w' st' ∧ st.next ≤ st'.next ∧ NoNew rs w w'
  | .diverge => False

/-- Entries that a loop has not produced. -/
def LiveWorld.left (w : LiveWorld K) (r : MRef) (seen : List Nat) : List Nat := ((w.entries r).map (·.id)).filter (fun i => !seen.contains i)

omit [LawfulGoEq K] in
theorem left_shrinks {w w' : LiveWorld K} {st' : BState K} (r : MRef) (seen : List Nat) (e : Entry K) (he : e ∈ w.entries r) (hs : e.id ∉ seen) (h' : LRel w' st')
    (hn : ∀ e' ∈ w'.entries r, ∃ e ∈ w.entries r, e.id = e'.id) : (w'.left r (e.id :: seen)).length < (w.left r seen).length := by
  have nd : ((w'.entries r).map (·.id)).Nodup := by
    cases r with
    | none => exact List.nodup_nil
    | some j => exact h'.2.ids j
  have hnd : (e.id :: w'.left r (e.id :: seen)).Nodup := by
    refine List.nodup_cons.2 ⟨fun hm => ?_, nd.filter _⟩
    have := (List.mem_filter.1 hm).2
    simp at this
  have := List.Nodup.length_le_of_subset hnd (l₂ := w.left r seen) (by
    intro i hi
    rcases List.mem_cons.1 hi with rfl | hi
    · exact List.mem_filter.2 ⟨List.mem_map.2 ⟨e, he, rfl⟩, by simpa using hs⟩
    · obtain ⟨h1, h2⟩ := List.mem_filter.1 hi
      obtain ⟨e', he', rfl⟩ := List.mem_map.1 h1
      obtain ⟨e2, m2, i2⟩ := hn e' he'
      exact List.mem_filter.2 ⟨List.mem_map.2 ⟨e2, m2, i2⟩, by simp at h2 ⊢; exact h2.2⟩)
  exact this

omit [LawfulGoEq K] in
theorem rangeLoop_settles (rt : LiveRt K) (rs : List MRef) (r : MRef) (b : Nat) (body : σ → K → GoM (LiveWorld K) (σ × Bool))
    (hbody : ∀ t k w st, LRel w st → (∀ x ∈ r :: rs, RefOk st.next x) → Settles (r :: rs) w st (body t k w)) (fuel : Nat) :
    ∀ (seen : List Nat) (t : σ) (w : LiveWorld K) (st : BState K), LRel w st → (∀ x ∈ r :: rs, RefOk st.next x) → (w.left r seen).length < fuel →
      Settles rs w st (Live.rangeLoop rt r b body fuel seen t w) := by
  induction fuel with
  | zero => intro seen t w st _ _ h; omega
  | succ fuel ih =>
    intro seen t w st h hr hf
    rcases nextEntry_cases rt r b seen w with ⟨e, en, he, hs⟩ | ⟨en, _⟩
    · simp only [Live.rangeLoop, GoM.bind_def, en]
      have hx := hbody t e.key _ st (h.steps (w.steps + 1)) hr
      revert hx
      have drop : ∀ {w' : LiveWorld K}, NoNew (r :: rs) { w with steps := w.steps + 1 } w' → NoNew rs w w' :=
        fun g => (NoNew.steps rs w _).trans (fun x hx => g x (List.mem_cons_of_mem _ hx))
      cases body t e.key { w with steps := w.steps + 1 } with
      | ok a w' =>
        rintro ⟨st', h1, h2, h3⟩
        simp only
        split
        · have hlt := left_shrinks r seen e he hs h1 (fun e' he' => by
            obtain ⟨e2, m2, i2⟩ := h3 r (by simp) e' he'
            refine ⟨e2, ?_, i2⟩
            cases r <;> exact m2)
          have := ih (e.id :: seen) a.1 w' st' h1 (fun x hx => (hr x hx).mono h2) (by omega)
          revert this
          cases Live.rangeLoop rt r b body fuel (e.id :: seen) a.1 w' with
          | ok a2 w2 => rintro ⟨st2, g1, g2, g3⟩; exact ⟨st2, g1, Nat.le_trans h2 g2, (drop h3).trans g3⟩
          | panic w2 => rintro ⟨st2, g1, g2, g3⟩; exact ⟨st2, g1, Nat.le_trans h2 g2, (drop h3).trans g3⟩
          | diverge => exact fun g => g
        · exact ⟨st', h1, h2, drop h3⟩
      | panic w' => rintro ⟨st', h1, h2, h3⟩; exact ⟨st', h1, h2, drop h3⟩
      | diverge => exact fun g => g
    · simp only [Live.rangeLoop, GoM.bind_def, en, GoM.pure_apply]
      exact ⟨st, h.steps _, Nat.le_refl _, NoNew.steps rs w _⟩

theorem NProg.exec_settles (rt : LiveRt K) (extra : Nat) {α : Type} (p : NProg K α) : ∀ (rs : List MRef) (w : LiveWorld K) (st : BState K), LRel w st →
    (∀ x ∈ rs, RefOk st.next x) → p.Tame rs → Settles rs w st (p.exec rt extra w) := by
  induction p with
  | ret a => intro rs w st h _ _; exact ⟨st, h, Nat.le_refl _, NoNew.steps rs w w.steps⟩
  | panic => intro rs w st h _ _; exact ⟨st, h, Nat.le_refl _, NoNew.steps rs w w.steps⟩
  | hang => intro rs w st _ _ h; exact h.elim
  | call op k ih =>
    intro rs w st h hr ht
    have hn : w.next = st.next := h.1.1
    by_cases hv : op.Valid st.next
    · have hl : op.liveIn rt extra w = op.live rt extra w := by rw [BOp.liveIn, if_pos (by rw [hn]; exact hv)]
      rcases op.live_ok rt extra w st h hv with ⟨o, w', e, hne, hd⟩ | ⟨w', e, hd⟩
      · have := ih o rs w' (st.step op) hd.2.1 (fun x hx => (hr x hx).mono (st.next_step op)) (ht.2 o)
        have hN := NoNew.op h hd.2.1 hd.2.2 hr ht.1
        simp only [NProg.exec, GoM.bind_def, hl, e]
        revert this
        cases (k o).exec rt extra w' with
        | ok a w2 => rintro ⟨st2, g1, g2, g3⟩; exact ⟨st2, g1, Nat.le_trans (st.next_step op) g2, hN.trans g3⟩
        | panic w2 => rintro ⟨st2, g1, g2, g3⟩; exact ⟨st2, g1, Nat.le_trans (st.next_step op) g2, hN.trans g3⟩
        | diverge => exact fun g => g
      · simp only [NProg.exec, GoM.bind_def, hl, e]
        exact ⟨_, hd.2.1, st.next_step op, NoNew.op h hd.2.1 hd.2.2 hr ht.1⟩
    · have hl : op.liveIn rt extra w = .panic w := by rw [BOp.liveIn, if_neg (by rw [hn]; exact hv)]
      simp only [NProg.exec, GoM.bind_def, hl]
      exact ⟨st, h, Nat.le_refl _, NoNew.steps rs w w.steps⟩
  | each r cb t k ihb ihk =>
    intro rs w st h hr ht
    have hn : w.next = st.next := h.1.1
    by_cases hv : RefOk st.next r
    · have hl := rangeLoop_settles rt rs r w.ids (fun t x => (cb t x).exec rt extra)
        (fun t x w st h hr => ihb t x (r :: rs) w st h hr (ht.1 t x)) ((w.entries r).length + extra + 1) [] t w st h
        (fun x hx => by
          rcases List.mem_cons.1 hx with rfl | hx
          · exact hv
          · exact hr x hx)
        (by
          have := List.length_filter_le (fun i => !([] : List Nat).contains i) ((w.entries r).map (·.id))
          rw [List.length_map] at this
          unfold LiveWorld.left
          omega)
      have hw : RefOk w.next r := by rw [hn]; exact hv
      simp only [NProg.exec, if_pos hw, GoM.bind_def, Live.forEachIf, Live.range]
      revert hl
      cases Live.rangeLoop rt r w.ids (fun t x => (cb t x).exec rt extra) ((w.entries r).length + extra + 1) [] t w with
      | ok t' w' =>
        rintro ⟨st', h1, h2, h3⟩
        have := ihk t' rs w' st' h1 (fun x hx => (hr x hx).mono h2) (ht.2 t')
        simp only
        revert this
        cases (k t').exec rt extra w' with
        | ok a w2 => rintro ⟨st2, g1, g2, g3⟩; exact ⟨st2, g1, Nat.le_trans h2 g2, h3.trans g3⟩
        | panic w2 => rintro ⟨st2, g1, g2, g3⟩; exact ⟨st2, g1, Nat.le_trans h2 g2, h3.trans g3⟩
        | diverge => exact fun g => g
      | panic w' => rintro ⟨st', h1, h2, h3⟩; exact ⟨st', h1, h2, h3⟩
      | diverge => exact fun g => g
    · have hw : ¬ RefOk w.next r := by rw [hn]; exact hv
      simp only [NProg.exec, if_neg hw]
      exact ⟨st, h, Nat.le_refl _, NoNew.steps rs w w.steps⟩

/-! ## Programs without loops, and all pairs -/

omit [LawfulGoEq K] in
theorem BProg.exec_nested (rt : LiveRt K) (extra : Nat) (p : BProg K α) : p.nested.exec rt extra = p.exec rt extra := by
  induction p with
  | ret a => rfl
  | panic => rfl
  | hang => rfl
  | call op k ih =>
    simp only [BProg.nested, NProg.exec, BProg.exec]
    congr 1
    funext o
    exact ih o

omit [LawfulGoEq K] in
theorem pairs_exec (rt : LiveRt K) (extra : Nat) (r r' : MRef) (w : LiveWorld K) (hw : w.Good) (h1 : RefOk w.next r) (h2 : RefOk w.next r') :
    ∃ l n, (NProg.pairs r r').exec rt extra w = .ok l { w with steps := n } ∧
      l.Perm (((w.entries r).map (·.key)).flatMap (fun x => ((w.entries r').map (·.key)).map (fun y => (x, y)))) := by
  have hid : ((w.entries r).map (·.id)).Nodup := by
    cases r with
    | none => exact List.nodup_nil
    | some j => exact hw.ids j
  have hb : ∀ e ∈ w.entries r, e.id < w.ids := entries_below hw r
  obtain ⟨l, w', e, h⟩ := range_rule rt extra r (fun l x => (NProg.each r' (fun l y => .ret (l ++ [(x, y)], true)) l (fun l => .ret (l, true)) : NProg K _).exec rt extra) ([] : List (K × K)) w hid hb
    (fun d l w' => (∃ n, w' = { w with steps := n }) ∧ l.Perm ((d.map Entry.key).flatMap (fun x => ((w.entries r').map Entry.key).map (fun y => (x, y)))))
    (fun _ _ => False)
    ⟨⟨w.steps, rfl⟩, by simp⟩
    (by rintro d l w' n ⟨⟨m, rfl⟩, h⟩; exact ⟨⟨n, rfl⟩, h⟩)
    (by
      rintro d l w' ⟨⟨m, rfl⟩, h⟩ e _
      cases r <;> rfl)
    (by
      rintro d l w' e ⟨⟨m, rfl⟩, hp⟩ he _
      obtain ⟨l2, n, e2, h3⟩ := lookLoop rt extra r' (fun l y => (NProg.ret (l ++ [(e.key, y)], true) : NProg K _).exec rt extra) l { w with steps := m } (hw.steps m)
        (fun d l2 => l2 = l ++ d.map (fun y => (e.key, y))) (fun _ => False) (by simp)
        (by
          rintro n d t x rfl _
          exact ⟨_, rfl, by simp⟩)
      refine ⟨(l2, true), { w with steps := n }, ?_, ?_⟩
      · simp only [NProg.exec, GoM.bind_def, Live.forEachIf]
        rw [if_pos (by exact h2)]
        simp only [NProg.exec] at e2
        rw [e2]
        rfl
      · simp only [if_true]
        rcases h3 with ⟨d2, hd2, rfl⟩ | hF
        · refine ⟨⟨n, rfl⟩, ?_⟩
          rw [List.map_append, List.flatMap_append]
          refine hp.append ?_
          simp only [List.map_cons, List.map_nil, List.flatMap_cons, List.flatMap_nil, List.append_nil]
          refine hd2.map _ |>.trans ?_
          cases r' <;> exact List.Perm.refl _
        · exact hF.elim)
  rcases h with ⟨d, hd, ⟨n, rfl⟩, hl⟩ | hF
  · refine ⟨l, n, ?_, hl.trans ((hd.map _).flatMap_right _)⟩
    show (NProg.each r _ [] _).exec rt extra w = _
    simp only [NProg.exec, GoM.bind_def, Live.forEachIf]
    rw [if_pos h1]
    simp only [NProg.exec] at e
    simp only [GoM.bind_def, Live.forEachIf] at e ⊢
    rw [e]
    rfl
  · exact hF.elim

end Stl4go
