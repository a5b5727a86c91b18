import Verif.Proofs.Vector
import Verif.Spec.ForEach
/-! # Lemmas about `Vector`: iteration, histories on several vectors -/
namespace Stl4go
variable {T σ : Type}

/-! ## Iteration -/

theorem VIter.collect_eq (v : Sl) (m : Mem T) (suf : List T) : ∀ (pre : List T) (fuel : Nat), v.read m = pre ++ suf → suf.length < fuel →
    VIter.collect fuel { v := v, i := pre.length } m = .ok suf m := by
  induction suf with
  | nil =>
    intro pre fuel hr hf
    have hl : v.len = pre.length := by rw [← Sl.read_length m v, hr]; simp
    obtain ⟨f, rfl⟩ : ∃ f, fuel = f + 1 := ⟨fuel - 1, by omega⟩
    unfold VIter.collect
    rw [if_neg (by simp [VIter.isNotEnd]; omega)]
    rfl
  | cons x suf ih =>
    intro pre fuel hr hf
    have hl : v.len = pre.length + (suf.length + 1) := by rw [← Sl.read_length m v, hr]; simp
    obtain ⟨f, rfl⟩ : ∃ f, fuel = f + 1 := ⟨fuel - 1, by omega⟩
    unfold VIter.collect
    rw [if_pos (by simp [VIter.isNotEnd]; omega)]
    have hg := Sl.get_ok v m pre.length (by omega)
    simp only [hr, List.getElem_append_right (Nat.le_refl _), Nat.sub_self, List.getElem_cons_zero] at hg
    have := ih (pre ++ [x]) f (by simp [hr]) (by simp at hf; omega)
    simp only [List.length_append, List.length_singleton] at this
    simp only [GoM.bind_def, VIter.value, hg, VIter.moveToNext]
    rw [show (pre.length : Int) + 1 = ((pre.length + 1 : Nat) : Int) by omega, this]
    rfl

theorem VIter.collect_all (v : Sl) (m : Mem T) (fuel : Nat) (h : v.len < fuel) : VIter.collect fuel { v := v, i := 0 } m = .ok (v.read m) m := by
  have := VIter.collect_eq v m (v.read m) [] fuel (by simp) (by simpa using h)
  simpa using this

theorem VIter.update_eq (f : T → T) (v : Sl) (m : Mem T) (suf : List T) : ∀ (pre : List T) (fuel : Nat), v.len = (pre ++ suf).length → suf.length < fuel →
    VIter.update f fuel { v := v, i := pre.length } (m.write v.off (pre ++ suf)) = .ok () (m.write v.off (pre ++ suf.map f)) := by
  induction suf with
  | nil =>
    intro pre fuel hl hf
    obtain ⟨g, rfl⟩ : ∃ f, fuel = f + 1 := ⟨fuel - 1, by omega⟩
    unfold VIter.update
    simp at hl
    rw [if_neg (by simp [VIter.isNotEnd]; omega)]
    simp [GoM.pure_apply]
  | cons x suf ih =>
    intro pre fuel hl hf
    obtain ⟨g, rfl⟩ : ∃ f, fuel = f + 1 := ⟨fuel - 1, by omega⟩
    unfold VIter.update
    rw [if_pos (by simp [VIter.isNotEnd]; simp at hl; omega)]
    simp only [GoM.bind_def, VIter.value, Sl.get_mid v m pre suf x hl, VIter.store, Sl.put_mid v m pre suf x _ hl, VIter.moveToNext]
    have := ih (pre ++ [f x]) g (by simp at hl ⊢; omega) (by simp at hf; omega)
    simp only [List.length_append, List.length_singleton] at this
    rw [show (pre.length : Int) + 1 = ((pre.length + 1 : Nat) : Int) by omega]
    simpa using this

theorem VIter.update_all (f : T → T) (v : Sl) (m : Mem T) (fuel : Nat) (h : v.len < fuel) :
    VIter.update f fuel { v := v, i := 0 } m = .ok () (m.write v.off ((v.read m).map f)) := by
  have := VIter.update_eq f v m (v.read m) [] fuel (by simp) (by simpa using h)
  simpa [Sl.write_read] using this

theorem Vec.forEachLoop_eq (v : Sl) (cb : σ → T → σ) (m : Mem T) (suf : List T) : ∀ (pre : List T) (t : σ), v.read m = pre ++ suf →
    Vec.forEachLoop v cb suf.length pre.length t m = .ok (suf.foldl cb t) m := by
  induction suf with
  | nil => intro pre t _; rfl
  | cons x suf ih =>
    intro pre t hr
    have hl : v.len = pre.length + (suf.length + 1) := by rw [← Sl.read_length m v, hr]; simp
    have hg := Sl.get_ok v m pre.length (by omega)
    simp only [hr, List.getElem_append_right (Nat.le_refl _), Nat.sub_self, List.getElem_cons_zero] at hg
    have := ih (pre ++ [x]) (cb t x) (by simp [hr])
    simp only [List.length_append, List.length_singleton] at this
    simp only [List.length_cons, Vec.forEachLoop, GoM.bind_def, hg, this]
    rfl

theorem Vec.forEach_eq (cb : σ → T → σ) (t : σ) (m : Mem T) (v : Sl) : Vec.forEach cb t ⟨m, v⟩ = .ok ((v.read m).foldl cb t) ⟨m, v⟩ := by
  have := Vec.forEachLoop_eq v cb m (v.read m) [] t (by simp)
  simp only [Sl.read_length, List.length_nil] at this
  simp [Vec.forEach, GoM.bind_def, VS.on_ok this]

theorem Vec.forEachIfLoop_eq (v : Sl) (cb : σ → T → σ × Bool) (m : Mem T) (suf : List T) : ∀ (pre : List T) (t : σ), v.read m = pre ++ suf →
    Vec.forEachIfLoop v cb suf.length pre.length t m = .ok (visitWhile1 cb t suf) m := by
  induction suf with
  | nil => intro pre t _; rfl
  | cons x suf ih =>
    intro pre t hr
    have hl : v.len = pre.length + (suf.length + 1) := by rw [← Sl.read_length m v, hr]; simp
    have hg := Sl.get_ok v m pre.length (by omega)
    simp only [hr, List.getElem_append_right (Nat.le_refl _), Nat.sub_self, List.getElem_cons_zero] at hg
    have := ih (pre ++ [x]) (cb t x).1 (by simp [hr])
    simp only [List.length_append, List.length_singleton] at this
    simp only [List.length_cons, Vec.forEachIfLoop, GoM.bind_def, hg]
    rcases Bool.eq_false_or_eq_true (cb t x).2 with hc | hc
    · rw [if_neg (by simp [hc]), this]
      simp [visitWhile1, hc]
    · rw [if_pos hc]
      simp [visitWhile1, hc, GoM.pure_apply]

theorem Vec.forEachIf_eq (cb : σ → T → σ × Bool) (t : σ) (m : Mem T) (v : Sl) :
    Vec.forEachIf cb t ⟨m, v⟩ = .ok (visitWhile1 cb t (v.read m)) ⟨m, v⟩ := by
  have := Vec.forEachIfLoop_eq v cb m (v.read m) [] t (by simp)
  simp only [Sl.read_length, List.length_nil] at this
  simp [Vec.forEachIf, GoM.bind_def, VS.on_ok this]

theorem Vec.forEachMutableLoop_eq (v : Sl) (cb : σ → T → σ × T) (m : Mem T) (suf : List T) : ∀ (pre : List T) (t : σ), v.len = (pre ++ suf).length →
    Vec.forEachMutableLoop v cb suf.length pre.length t (m.write v.off (pre ++ suf)) =
      .ok (updateAll1 cb t suf).1 (m.write v.off (pre ++ (updateAll1 cb t suf).2)) := by
  induction suf with
  | nil => intro pre t _; rfl
  | cons x suf ih =>
    intro pre t hl
    simp only [List.length_cons, Vec.forEachMutableLoop, GoM.bind_def, Sl.get_mid v m pre suf x hl, Sl.put_mid v m pre suf x _ hl]
    have := ih (pre ++ [(cb t x).2]) (cb t x).1 (by simp at hl ⊢; omega)
    simp at this
    simp [this, updateAll1]

theorem updateAll1_length (cb : σ → T → σ × T) (s : List T) : ∀ t, (updateAll1 cb t s).2.length = s.length := by
  induction s with
  | nil => intro t; rfl
  | cons x s ih => intro t; simp [updateAll1, ih]

theorem updateWhile1_length (cb : σ → T → σ × T × Bool) (s : List T) : ∀ t, (updateWhile1 cb t s).2.length = s.length := by
  induction s with
  | nil => intro t; rfl
  | cons x s ih => intro t; simp only [updateWhile1]; split <;> simp [ih]

theorem Vec.forEachMutable_eq (cb : σ → T → σ × T) (t : σ) (m : Mem T) (v : Sl) :
    Vec.forEachMutable cb t ⟨m, v⟩ = .ok (updateAll1 cb t (v.read m)).1 ⟨m.write v.off (updateAll1 cb t (v.read m)).2, v⟩ := by
  have := Vec.forEachMutableLoop_eq v cb m (v.read m) [] t (by simp)
  simp only [Sl.read_length, List.length_nil, List.nil_append, Sl.write_read] at this
  simp [Vec.forEachMutable, GoM.bind_def, VS.on_ok this]

theorem Vec.forEachMutableIfLoop_eq (v : Sl) (cb : σ → T → σ × T × Bool) (m : Mem T) (suf : List T) : ∀ (pre : List T) (t : σ), v.len = (pre ++ suf).length →
    Vec.forEachMutableIfLoop v cb suf.length pre.length t (m.write v.off (pre ++ suf)) =
      .ok (updateWhile1 cb t suf).1 (m.write v.off (pre ++ (updateWhile1 cb t suf).2)) := by
  induction suf with
  | nil => intro pre t _; rfl
  | cons x suf ih =>
    intro pre t hl
    simp only [List.length_cons, Vec.forEachMutableIfLoop, GoM.bind_def, Sl.get_mid v m pre suf x hl, Sl.put_mid v m pre suf x _ hl]
    rcases Bool.eq_false_or_eq_true (cb t x).2.2 with hc | hc
    · rw [if_neg (by simp [hc])]
      have := ih (pre ++ [(cb t x).2.1]) (cb t x).1 (by simp at hl ⊢; omega)
      simp at this
      simp [this, updateWhile1, hc]
    · rw [if_pos hc]
      simp [updateWhile1, hc, GoM.pure_apply]

theorem Vec.forEachMutableIf_eq (cb : σ → T → σ × T × Bool) (t : σ) (m : Mem T) (v : Sl) :
    Vec.forEachMutableIf cb t ⟨m, v⟩ = .ok (updateWhile1 cb t (v.read m)).1 ⟨m.write v.off (updateWhile1 cb t (v.read m)).2, v⟩ := by
  have := Vec.forEachMutableIfLoop_eq v cb m (v.read m) [] t (by simp)
  simp only [Sl.read_length, List.length_nil, List.nil_append, Sl.write_read] at this
  simp [Vec.forEachMutableIf, GoM.bind_def, VS.on_ok this]

/-! ## One operation -/

variable [GoZero T]

theorem Vec.cut_exec (grow : Nat → Nat → Nat) (i j : Int) (hij : i ≤ j) {m : Mem T} {v : Sl} {s : List T} (h : v.WF m) (hs : v.read m = s) :
    ∃ m' v', VS.observe (fun _ => DObs.unit) (Vec.removeRange grow i j) ⟨m, v⟩ = ((VSeq.cut s i j).1, ⟨m', v'⟩) ∧ VStep m v m' v' (VSeq.cut s i j).2 := by
  have hl : s.length = v.len := by rw [← hs]; simp
  unfold VSeq.cut
  by_cases hc : 0 ≤ i ∧ j ≤ v.len
  · rw [if_pos (by omega)]
    obtain ⟨a, rfl⟩ : ∃ n : Nat, i = n := ⟨i.toNat, by omega⟩
    obtain ⟨b, rfl⟩ : ∃ n : Nat, j = n := ⟨j.toNat, by omega⟩
    obtain ⟨m', v', e, st, _⟩ := Vec.removeRange_step grow a b h (by omega) (by omega)
    exact ⟨m', v', by simp [VS.observe, e], by rw [hs] at st; simpa using st⟩
  · rw [if_neg (by omega)]
    refine ⟨m, v, by simp [VS.observe, Vec.removeRange_panic grow i j hij hc], ?_⟩
    subst hs
    exact VStep.refl h

omit [GoZero T] in
theorem getLast?_split (s : List T) (x : T) : (s ++ [x]).getLast? = some x ∧ (s ++ [x]).dropLast = s :=
  ⟨List.getLast?_concat, by simp⟩

theorem Vec.exec_step (grow : Nat → Nat → Nat) (op : VOp T) (hv : op.Valid) {m : Mem T} {v : Sl} {s : List T} (h : v.WF m) (hs : v.read m = s) :
    ∃ m' v', Vec.exec grow ⟨m, v⟩ op = ((VSeq.step s op).1, ⟨m', v'⟩) ∧ VStep m v m' v' (VSeq.step s op).2 := by
  have hl : s.length = v.len := by rw [← hs]; simp
  have same : VStep m v m v s := by subst hs; exact VStep.refl h
  have hnil : v.len = 0 → s = [] := fun h0 => List.eq_nil_of_length_eq_zero (by omega)
  cases op with
  | make => exact ⟨m, Sl.empty, rfl, Vec.make_step.2⟩
  | makeCap c =>
    simp only [VSeq.step, Vec.exec]
    by_cases hc : 0 ≤ c
    · obtain ⟨n, rfl⟩ : ∃ n : Nat, c = n := ⟨c.toNat, by omega⟩
      obtain ⟨m', v', e, st, _⟩ := Vec.makeCap_step n (m := m) (v := v)
      rw [if_pos hc]
      exact ⟨m', v', by simp [VS.observe, e], st⟩
    · rw [if_neg hc]
      exact ⟨m, v, by simp [VS.observe, Vec.makeCap_panic c (by omega)], same⟩
  | of xs =>
    obtain ⟨m', v', e, st, _⟩ := Vec.of_step xs (m := m) (v := v)
    exact ⟨m', v', by simp [VSeq.step, Vec.exec, VS.observe, e], st⟩
  | len => exact ⟨m, v, by simp [VSeq.step, Vec.exec, VS.observe, Vec.len, GoM.bind_def, GoM.pure_apply, hl], same⟩
  | isEmpty =>
    refine ⟨m, v, ?_, same⟩
    have : s.isEmpty = (v.len == 0) := by
      cases s with
      | nil => simp at hl; simp [← hl]
      | cons a b => simp at hl; simp [← hl]
    simp [VSeq.step, Vec.exec, VS.observe, Vec.isEmpty, GoM.bind_def, GoM.pure_apply, this]
  | clear =>
    obtain ⟨m', e, st, _⟩ := Vec.clear_step h
    exact ⟨m', _, by simp [VSeq.step, Vec.exec, VS.observe, e], st⟩
  | reserve l =>
    obtain ⟨m', v', e, st, _⟩ := Vec.reserve_step l h
    exact ⟨m', v', by simp [VSeq.step, Vec.exec, VS.observe, e], by rw [hs] at st; exact st⟩
  | shrink =>
    obtain ⟨m', v', e, st, _⟩ := Vec.shrink_step grow h
    exact ⟨m', v', by simp [VSeq.step, Vec.exec, VS.observe, e], by rw [hs] at st; exact st⟩
  | «at» i =>
    simp only [VSeq.step, Vec.exec]
    by_cases hc : 0 ≤ i ∧ i < v.len
    · obtain ⟨n, rfl⟩ : ∃ n : Nat, i = n := ⟨i.toNat, by omega⟩
      have e := Vec.at_ok n (m := m) (v := v) (by simp; omega)
      rw [dif_pos (by omega)]
      refine ⟨m, v, ?_, same⟩
      simp [VS.observe, e, hs]
    · rw [dif_neg (by omega)]
      exact ⟨m, v, by simp [VS.observe, Vec.at_panic i hc], same⟩
  | set i x =>
    simp only [VSeq.step, Vec.exec]
    by_cases hc : 0 ≤ i ∧ i < v.len
    · obtain ⟨n, rfl⟩ : ∃ n : Nat, i = n := ⟨i.toNat, by omega⟩
      obtain ⟨m', e, st, _⟩ := Vec.set_step n x h (by omega)
      rw [if_pos (by omega)]
      exact ⟨m', v, by simp [VS.observe, e], by rw [hs] at st; simpa using st⟩
    · rw [if_neg (by omega)]
      exact ⟨m, v, by simp [VS.observe, Vec.set_panic i x hc], same⟩
  | pushBack x =>
    obtain ⟨m', v', e, st⟩ := Vec.pushBack_step grow x h
    exact ⟨m', v', by simp [VSeq.step, Vec.exec, VS.observe, e], by rw [hs] at st; exact st⟩
  | popBack =>
    simp only [VSeq.step, Vec.exec]
    by_cases h0 : v.len = 0
    · rw [hnil h0] at same ⊢
      exact ⟨m, v, by simp [VS.observe, Vec.popBack_panic h0], same⟩
    · obtain ⟨m', v', s', x, es, e, st, _⟩ := Vec.popBack_step h (by omega)
      rw [← hs, es, (getLast?_split s' x).1]
      refine ⟨m', v', by simp [VS.observe, e], ?_⟩
      simp only [(getLast?_split s' x).2]
      exact st
  | tryPopBack =>
    simp only [VSeq.step, Vec.exec]
    by_cases h0 : v.len = 0
    · rw [hnil h0] at same ⊢
      refine ⟨m, v, by simp [VS.observe, Vec.tryPopBack, Vec.isEmpty, GoM.bind_def, GoM.pure_apply, h0], same⟩
    · obtain ⟨m', v', s', x, es, e, st, _⟩ := Vec.popBack_step h (by omega)
      rw [← hs, es, (getLast?_split s' x).1]
      refine ⟨m', v', by simp [VS.observe, Vec.tryPopBack, Vec.isEmpty, GoM.bind_def, GoM.pure_apply, h0, e], ?_⟩
      simp only [(getLast?_split s' x).2]
      exact st
  | back =>
    simp only [VSeq.step, Vec.exec]
    by_cases h0 : v.len = 0
    · rw [hnil h0] at same ⊢
      exact ⟨m, v, by simp [VS.observe, Vec.back_panic h0], same⟩
    · obtain ⟨s', x, es, _, hg⟩ := Sl.last_split m v (by omega)
      rw [hs] at es
      rw [es] at same ⊢
      rw [(getLast?_split s' x).1]
      exact ⟨m, v, by simp [VS.observe, Vec.back, GoM.bind_def, VS.on_ok hg], same⟩
  | append xs =>
    obtain ⟨x, m1, e1, hF, ho, hr, hlx, _⟩ := Sl.lit_fresh xs m
    have k := VStep.keep h hF.top hF.keep
    obtain ⟨m', v', e, st, _⟩ := Vec.append_step grow x k.wf
    rw [k.read, hr, hs] at st
    exact ⟨m', v', by simp [VSeq.step, Vec.exec, VS.observe, GoM.bind_def, VS.on_ok e1, e], k.trans st⟩
  | insert i xs =>
    simp only [VSeq.step, Vec.exec]
    obtain ⟨x, m1, e1, hF, ho, hr, hlx, _⟩ := Sl.lit_fresh xs m
    have k := VStep.keep h hF.top hF.keep
    have h1 := h.1
    have h2 := h.2
    by_cases hc : 0 ≤ i ∧ i ≤ v.len
    · obtain ⟨n, rfl⟩ : ∃ n : Nat, i = n := ⟨i.toNat, by omega⟩
      obtain ⟨m', v', e, st, _⟩ := Vec.insert_step n x k.wf hF.wf (by omega) (fun hle => .inr (by omega))
      rw [k.read, hr, hs] at st
      rw [if_pos (by omega)]
      exact ⟨m', v', by simp [VS.observe, GoM.bind_def, VS.on_ok e1, e], by simpa using k.trans st⟩
    · obtain ⟨m', e, st, _⟩ := Vec.insert_panic i x k.wf hc
      rw [k.read, hs] at st
      rw [if_neg (by omega)]
      exact ⟨m', v, by simp [VS.observe, GoM.bind_def, VS.on_ok e1, e], k.trans st⟩
  | remove i => exact Vec.cut_exec grow i (i + 1) (by omega) h hs
  | removeRange i j => exact Vec.cut_exec grow i j hv h hs
  | removeLength i n => exact Vec.cut_exec grow i (i + n) (by have : 0 ≤ n := hv; omega) h hs
  | removeIf cond =>
    obtain ⟨m', v', e, st, _⟩ := Vec.removeIf_step (seenCond cond) [] h
    rw [hs] at e st
    exact ⟨m', v', by simp [VSeq.step, Vec.exec, VS.observe, e], st⟩
  | values =>
    refine ⟨m, v, ?_, same⟩
    have := VIter.collect_all v m (v.len + 1) (by omega)
    rw [hs] at this
    simp [VSeq.step, Vec.exec, VS.observe, Vec.iterate, GoM.bind_def, GoM.pure_apply, VS.on_ok this]

/-- `RemoveRange` with the range upside down: always a panic, but the vector may have been changed before it. -/
theorem Vec.removeRange_reversed (grow : Nat → Nat → Nat) (i j : Int) (hij : j < i) {m : Mem T} {v : Sl} (h : v.WF m) :
    ∃ m' v' s', Vec.removeRange grow i j ⟨m, v⟩ = .panic ⟨m', v'⟩ ∧ VStep m v m' v' s'
      ∧ (¬ (0 ≤ j ∧ j ≤ v.len ∧ i ≤ v.cap) → m' = m ∧ v' = v)
      ∧ (0 ≤ j → j ≤ v.len → i ≤ v.cap → s' = Sl.read m { v with len := i.toNat } ++ (v.read m).drop j.toNat) := by
  have h1 := h.1
  by_cases hi : 0 ≤ i ∧ i ≤ v.cap
  · obtain ⟨a, rfl⟩ : ∃ n : Nat, i = n := ⟨i.toNat, by omega⟩
    have ea := Sl.slice_zero v m a (by omega)
    by_cases hj : 0 ≤ j ∧ j ≤ v.len
    · obtain ⟨b, rfl⟩ : ∃ n : Nat, j = n := ⟨j.toNat, by omega⟩
      have eb := Sl.slice_ok v m b v.len (by omega) h1
      have el : Sl.load { off := v.off + b, len := v.len - b, cap := v.cap - b } m = .ok ((v.read m).drop b) m := by
        unfold Sl.load
        rw [Sl.read_sub m v b (v.len - b) _ (by omega), List.take_of_length_le (by simp)]
      obtain ⟨t, m1, e, st, hin, hout⟩ := Sl.append_step grow { v with len := a } ((v.read m).drop b) m ⟨by simp; omega, h.2⟩
      have htl : t.len = a + (v.len - b) := by
        have := congrArg List.length st.read
        simpa using this
      have er := Sl.slice_panic v m1 t.len v.len (by omega)
      refine ⟨m1, t, _, ?_, ⟨st.wf, st.read, st.top, st.place, st.frame, ?_⟩, fun hn => absurd ⟨hj.1, hj.2, hi.2⟩ hn, fun _ _ _ => by simp⟩
      · simp [Vec.removeRange, GoM.bind_def, VS.on_ok ea, VS.on_ok eb, VS.on_ok el, VS.on_ok e, VS.on_panic er]
      · intro hc k hk1 hk2
        by_cases hcap : a + ((v.read m).drop b).length ≤ v.cap
        · obtain ⟨q1, q2⟩ := hin hcap
          rw [q1] at hk2 ⊢
          rw [q2]
          simp only at hk2 ⊢
          rw [Mem.write_out _ _ _ _ (.inr (by simp; omega))]
          exact hc k (by omega) hk2
        · unfold Sl.append at e
          simp only [if_neg hcap] at e
          cases e
          simp only at hk1 hk2 ⊢
          rw [Mem.alloc_cell, Mem.write_in _ _ _ _ (by simp at hk1 hk2 ⊢; omega), List.getElem_append_right (by simpa using hk1)]
          simp
    · have eb := Sl.slice_panic v m j v.len (by omega)
      exact ⟨m, v, _, by simp [Vec.removeRange, GoM.bind_def, VS.on_ok ea, VS.on_panic eb], VStep.refl h, fun _ => ⟨rfl, rfl⟩,
        fun a b _ => absurd ⟨a, b⟩ hj⟩
  · exact ⟨m, v, _, by simp [Vec.removeRange, GoM.bind_def, VS.on_panic (Sl.slice_panic v m 0 i (by omega))], VStep.refl h,
      fun _ => ⟨rfl, rfl⟩, fun _ _ _ => by omega⟩

/-- Any operation, upside-down ranges included. -/
theorem Vec.exec_any (grow : Nat → Nat → Nat) (op : VOp T) {m : Mem T} {v : Sl} (h : v.WF m) :
    ∃ o m' v' s', Vec.exec grow ⟨m, v⟩ op = (o, ⟨m', v'⟩) ∧ VStep m v m' v' s' := by
  have rev : ∀ i j : Int, j < i → ∃ o m' v' s', VS.observe (fun _ => DObs.unit) (Vec.removeRange grow i j) ⟨m, v⟩ = (o, ⟨m', v'⟩) ∧ VStep m v m' v' s' := by
    intro i j hij
    obtain ⟨m', v', s', e, st, _⟩ := Vec.removeRange_reversed grow i j hij h
    exact ⟨.panicked, m', v', s', by simp [VS.observe, e], st⟩
  by_cases hv : op.Valid
  · obtain ⟨m', v', e, st⟩ := Vec.exec_step grow op hv h rfl
    exact ⟨_, m', v', _, e, st⟩
  · cases op with
    | removeRange i j => exact rev i j (by simp [VOp.Valid] at hv; omega)
    | removeLength i n => exact rev i (i + n) (by simp [VOp.Valid] at hv; omega)
    | _ => exact absurd trivial hv

/-! ## Histories -/

/-- The invariant of a program with several vectors: each is well formed and holds its sequence; no two share a cell; the cells `F` of
the rest of the program are in no vector and hold what they held in `m0`; with `C`, the unused parts are clean. -/
structure VWInv (C : Prop) (F : Nat → Prop) (m0 : Mem T) (w : VWorld T) (s : Nat → List T) : Prop where
  wf : ∀ i, (w.vars i).WF w.mem
  read : ∀ i, (w.vars i).read w.mem = s i
  clean : C → ∀ i, Clean w.mem (w.vars i)
  disj : ∀ i j, i ≠ j → ∀ k, (w.vars i).Has k → ¬ (w.vars j).Has k
  others : ∀ k, F k → k < w.mem.top ∧ w.mem.cell k = m0.cell k ∧ ∀ i, ¬ (w.vars i).Has k

theorem VWInv.init (m0 : Mem T) : VWInv True (· < m0.top) m0 (VWorld.init m0) (fun _ => []) where
  wf _ := (Fresh.nil m0).wf
  read _ := rfl
  clean _ _ k _ hk := absurd hk (by simp [VWorld.init, Sl.empty])
  disj _ _ _ k h := by simp [Sl.Has, VWorld.init, Sl.empty] at h
  others k hk := ⟨hk, rfl, fun _ h => by simp [Sl.Has, VWorld.init, Sl.empty] at h⟩

variable {C : Prop} {F : Nat → Prop}

/-- One slice variable takes a step that stays in its array or moves to a new one. -/
theorem VWInv.move {m0 : Mem T} {w : VWorld T} {s : Nat → List T} (h : VWInv C F m0 w s) (i : Nat) {m' : Mem T} {v' : Sl} {s' : List T}
    (hwf : v'.WF m') (hread : v'.read m' = s') (htop : w.mem.top ≤ m'.top)
    (hplace : (v'.off = (w.vars i).off ∧ v'.cap = (w.vars i).cap) ∨ w.mem.top ≤ v'.off ∨ v'.cap = 0)
    (hframe : ∀ k, k < w.mem.top → (k < (w.vars i).off ∨ (w.vars i).off + (w.vars i).cap ≤ k) → m'.cell k = w.mem.cell k)
    (hclean : C → Clean w.mem (w.vars i) → Clean m' v') :
    VWInv C F m0 { mem := m', vars := fun j => if j = i then v' else w.vars j } (fun j => if j = i then s' else s j) := by
  have has : ∀ k, v'.Has k → (w.vars i).Has k ∨ w.mem.top ≤ k := by
    intro k hk
    unfold Sl.Has at hk ⊢
    rcases hplace with ⟨p1, p2⟩ | p | p
    · left; omega
    · right; omega
    · omega
  have unch : ∀ j, j ≠ i → ∀ k, (w.vars j).Has k → m'.cell k = w.mem.cell k := by
    intro j hj k hk
    have hkt : k < w.mem.top := by have := (h.wf j).2; unfold Sl.Has at hk; omega
    apply hframe k hkt
    have := h.disj j i hj k hk
    unfold Sl.Has at this
    omega
  refine ⟨?_, ?_, ?_, ?_, ?_⟩
  · intro j
    by_cases hj : j = i
    · subst hj; simpa using hwf
    · simp only [hj, if_false]
      exact ⟨(h.wf j).1, Nat.le_trans (h.wf j).2 htop⟩
  · intro j
    by_cases hj : j = i
    · subst hj; simpa using hread
    · simp only [hj, if_false]
      rw [← h.read j]
      apply Sl.read_congr
      intro k h1 h2
      exact unch j hj k ⟨h1, by have := (h.wf j).1; omega⟩
  · intro c j
    by_cases hj : j = i
    · subst hj; simpa using hclean c (h.clean c j)
    · simp only [hj, if_false]
      intro k h1 h2
      rw [unch j hj _ ⟨by omega, by omega⟩]
      exact h.clean c j k h1 h2
  · intro j l hjl k hk
    by_cases hj : j = i
    · subst hj
      have hl : l ≠ j := fun e => hjl e.symm
      simp only [if_true] at hk
      simp only [hl, if_false]
      intro hc
      rcases has k hk with h1 | h1
      · exact h.disj j l hjl k h1 hc
      · have := (h.wf l).2; unfold Sl.Has at hc; omega
    · simp only [hj, if_false] at hk
      by_cases hl : l = i
      · subst hl
        simp only [if_true]
        intro hc
        rcases has k hc with h1 | h1
        · exact h.disj j l hj k hk h1
        · have := (h.wf j).2; unfold Sl.Has at hk; omega
      · simp only [hl, if_false]
        exact h.disj j l hjl k hk
  · intro k hk
    obtain ⟨a, b, c⟩ := h.others k hk
    refine ⟨Nat.lt_of_lt_of_le a htop, ?_, ?_⟩
    · rw [← b]
      apply hframe k a
      have := c i
      unfold Sl.Has at this
      omega
    · intro j
      by_cases hj : j = i
      · subst hj
        simp only [if_true]
        intro hc
        rcases has k hc with h1 | h1
        · exact c j h1
        · omega
      · simp only [hj, if_false]
        exact c j

/-- One vector takes a step. -/
theorem VWInv.step {m0 : Mem T} {w : VWorld T} {s : Nat → List T} (h : VWInv C F m0 w s) (i : Nat) {m' : Mem T} {v' : Sl} {s' : List T}
    (st : VStep w.mem (w.vars i) m' v' s') :
    VWInv C F m0 { mem := m', vars := fun j => if j = i then v' else w.vars j } (fun j => if j = i then s' else s j) :=
  h.move i st.wf st.read st.top st.place st.frame (fun _ => st.clean)

theorem VWInv.run (grow : Nat → Nat → Nat) {m0 : Mem T} (ops : List (Nat × VOp T)) : ∀ {w : VWorld T} {s : Nat → List T}, VWInv C F m0 w s →
    (∀ o ∈ ops, o.2.Valid) → (w.run grow ops).1 = (VSeq.run s ops).1 ∧ VWInv C F m0 (w.run grow ops).2 (VSeq.run s ops).2 := by
  induction ops with
  | nil => intro w s h _; exact ⟨rfl, h⟩
  | cons o ops ih =>
    intro w s h hv
    obtain ⟨i, op⟩ := o
    obtain ⟨m', v', e, st⟩ := Vec.exec_step grow op (hv (i, op) (by simp)) (h.wf i) (h.read i)
    obtain ⟨b1, b2⟩ := ih (h.step i st) (fun o ho => hv o (by simp [ho]))
    refine ⟨?_, ?_⟩
    · simp only [VWorld.run, VSeq.run, e]
      rw [b1]
    · simp only [VWorld.run, VSeq.run, e]
      exact b2

/-- Any history, upside-down ranges included. -/
theorem VWInv.run_any (grow : Nat → Nat → Nat) {m0 : Mem T} (ops : List (Nat × VOp T)) : ∀ {w : VWorld T} {s : Nat → List T}, VWInv C F m0 w s →
    ∃ s', VWInv C F m0 (w.run grow ops).2 s' := by
  induction ops with
  | nil => intro w s h; exact ⟨s, h⟩
  | cons o ops ih =>
    intro w s h
    obtain ⟨i, op⟩ := o
    obtain ⟨_, m', v', _, e, st⟩ := Vec.exec_any grow op (h.wf i)
    obtain ⟨s', b⟩ := ih (h.step i st)
    refine ⟨s', ?_⟩
    simp only [VWorld.run, e]
    exact b

/-- The observations of variable `i` are those of its own operations. -/
theorem VSeq.obsOf_run (i : Nat) (ops : List (Nat × VOp T)) : ∀ (s t : Nat → List T), s i = t i →
    VSeq.obsOf i ops (VSeq.run s ops).1 = (VSeq.run t (ops.filter (fun o => o.1 = i))).1 := by
  induction ops with
  | nil => intro s t _; rfl
  | cons o ops ih =>
    intro s t h
    obtain ⟨j, op⟩ := o
    by_cases hj : j = i
    · subst hj
      simp only [VSeq.run, VSeq.obsOf, if_true, List.filter_cons, decide_true, h]
      rw [ih _ (fun k => if k = j then (VSeq.step (t j) op).2 else t k) (by simp)]
    · simp only [VSeq.run, VSeq.obsOf, hj, if_false, List.filter_cons, decide_false]
      exact ih _ _ (by simp [Ne.symm hj, h])

end Stl4go
