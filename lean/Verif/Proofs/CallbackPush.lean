import Verif.Proofs.CallbackAny
import Verif.Proofs.Vector
/-! # Lemmas for C112 and C113: callbacks that push to the vector they run on -/
namespace Stl4go
variable {T ρ : Type} [GoZero T]

/-- `w` is `v` grown in place, or does not meet the elements of `v`. -/
def Apart (v w : Sl) : Prop := (w.off = v.off ∧ w.cap = v.cap ∧ v.len ≤ w.len) ∨ v.off + v.len ≤ w.off

/-- A push to `w` does not touch the elements of `v`. -/
theorem push_apart (grow : Nat → Nat → Nat) (y : T) {v w : Sl} {m : Mem T} (t : ρ) (hw : w.WF m) (ht : v.off + v.len ≤ m.top) (ha : Apart v w) :
    ∃ m' w', CS.vec (Vec.pushBack grow y) ⟨m, w, t⟩ = .ok () ⟨m', w', t⟩ ∧ w'.WF m' ∧ w'.read m' = w.read m ++ [y] ∧ v.read m' = v.read m ∧
      m.top ≤ m'.top ∧ Apart v w' ∧ (w.len < w.cap → w' = { w with len := w.len + 1 }) ∧ (w.cap ≤ w.len → m.top ≤ w'.off) := by
  obtain ⟨w', m', e, g, hl, hin⟩ := Sl.append_spec grow w [y] m hw
  have hv : v.read m' = v.read m := by
    apply Sl.read_congr
    intro k h1 h2
    by_cases hc : w.len + [y].length ≤ w.cap
    · rw [(hin hc).2, Mem.write_out]
      rcases ha with ⟨h3, _, h4⟩ | h3 <;> omega
    · apply g.prefix_ _ k (by omega)
      rcases g.place with ⟨_, p⟩ | p
      · have := g.wf.1; omega
      · exact p
  refine ⟨m', w', by simp [CS.vec, Vec.pushBack, GoM.bind_def, VS.on_ok e], g.wf, g.read, hv, g.top, ?_, ?_, ?_⟩
  · rcases g.place with ⟨p1, p2⟩ | p
    · rcases ha with ⟨h3, h5, h4⟩ | h3
      · exact .inl ⟨by omega, by omega, by omega⟩
      · exact .inr (by omega)
    · exact .inr (by omega)
  · intro h
    exact (hin (by simp; omega)).1
  · intro h
    rcases g.place with ⟨_, p⟩ | p
    · have := g.wf.1
      simp at hl
      omega
    · exact p

/-- `ForEach` with a callback that pushes `f` of each element. -/
theorem forEach_push_loop (grow : Nat → Nat → Nat) (f : T → T) (v : Sl) (suf : List T) : ∀ (i : Nat) (m : Mem T) (w : Sl) (t : ρ),
    (v.read m).drop i = suf → w.WF m → v.off + v.len ≤ m.top → Apart v w →
    ∃ m' w', Vec.forEachLoopC v (fun x => CS.vec (Vec.pushBack grow (f x))) suf.length i ⟨m, w, t⟩ = .ok () ⟨m', w', t⟩ ∧
      w'.WF m' ∧ w'.read m' = w.read m ++ suf.map f ∧ v.read m' = v.read m := by
  induction suf with
  | nil => intro i m w t _ hw _ _; exact ⟨m, w, rfl, hw, by simp, rfl⟩
  | cons x suf ih =>
    intro i m w t h hw ht ha
    obtain ⟨h1, h2, h3⟩ := CS.get_at (ρ := Sl × ρ) v ⟨m, w, t⟩ i h
    obtain ⟨m1, w1, e, p1, p2, p3, p4, p5, _⟩ := push_apart grow (f x) t hw ht ha
    obtain ⟨m', w', e', q1, q2, q3⟩ := ih (i + 1) m1 w1 t (by rw [p3]; exact h3) p1 (by omega) p5
    refine ⟨m', w', ?_, q1, by rw [q2, p2]; simp, by rw [q3, p3]⟩
    simp only [List.length_cons, Vec.forEachLoopC, GoM.bind_def, h1, e]
    exact e'

omit [GoZero T] in
theorem read_set_mid {v : Sl} {m : Mem T} {pre suf : List T} {x : T} (y : T) (h : v.read m = pre ++ x :: suf) :
    v.read (m.write (v.off + pre.length) [y]) = pre ++ y :: suf ∧ m.cell (v.off + pre.length) = x ∧ pre.length < v.len := by
  have hl : pre.length < v.len := by
    have := congrArg List.length h
    simp at this
    omega
  have h1 := Mem.write_set m v.off (v.read m) pre.length y (by simpa using hl)
  rw [Sl.write_read] at h1
  refine ⟨?_, ?_, hl⟩
  · rw [h1, Sl.read_write_self _ _ _ (by simp), h]
    simp
  · have h2 := Sl.read_getElem m v pre.length (by simpa using hl)
    rw [← h2]
    simp [h]

/-- After the vector has moved. -/
theorem mutable_moved (grow : Nat → Nat → Nat) (f h : T → T) (v : Sl) (suf : List T) : ∀ (pre : List T) (m : Mem T) (w : Sl) (t : ρ),
    v.read m = pre ++ suf → w.WF m → v.off + v.len ≤ m.top → v.off + v.len ≤ w.off →
    ∃ m' w', Vec.forEachMutableLoopC v (setAndPush grow f h) suf.length pre.length ⟨m, w, t⟩ = .ok () ⟨m', w', t⟩ ∧ w'.WF m' ∧
      w'.read m' = w.read m ++ suf.map h ∧ v.read m' = pre ++ suf.map f := by
  induction suf with
  | nil => intro pre m w t h1 hw _ _; exact ⟨m, w, rfl, hw, by simp, by simpa using h1⟩
  | cons x suf ih =>
    intro pre m w t h1 hw ht ha
    obtain ⟨s1, s2, s3⟩ := read_set_mid (f x) h1
    have hw1 : w.WF (m.write (v.off + pre.length) [f x]) := hw
    obtain ⟨m1, w1, e, p1, p2, p3, p4, p5, _⟩ := push_apart grow (h x) t (v := v) hw1 ht (.inr ha)
    have ha1 : v.off + v.len ≤ w1.off := by
      by_cases hz : w.len < w.cap
      · have := (push_apart grow (h x) t (v := v) hw1 ht (.inr ha))
        obtain ⟨m2, w2, e2, _, _, _, _, _, q, _⟩ := this
        rw [e] at e2
        simp only [Res.ok.injEq, true_and, CS.mk.injEq, Prod.mk.injEq] at e2
        rw [e2.2.1, q hz]
        exact ha
      · obtain ⟨m2, w2, e2, _, _, _, _, _, _, q⟩ := push_apart grow (h x) t (v := v) hw1 ht (.inr ha)
        rw [e] at e2
        simp only [Res.ok.injEq, true_and, CS.mk.injEq, Prod.mk.injEq] at e2
        have := q (by omega)
        simp only [Mem.write_top] at this
        rw [e2.2.1]
        omega
    have hr : w.read (m.write (v.off + pre.length) [f x]) = w.read m := Sl.read_write_disjoint _ _ _ _ (.inr (by simp; omega))
    obtain ⟨m', w', e', q1, q2, q3⟩ := ih (pre ++ [f x]) m1 w1 t (by rw [p3, s1]; simp) p1 (by simp at p4; omega) ha1
    refine ⟨m', w', ?_, q1, by rw [q2, p2, hr]; simp, by rw [q3]; simp⟩
    simp only [List.length_cons, Vec.forEachMutableLoopC, GoM.bind_def, CS.addr_elem v _ pre.length s3, setAndPush, s2, e]
    simpa using e'

/-- As long as the vector is grown in place, and then. -/
theorem mutable_grown (grow : Nat → Nat → Nat) (f h : T → T) (v : Sl) (suf : List T) : ∀ (pre tail : List T) (m : Mem T) (w : Sl) (t : ρ),
    v.read m = pre ++ suf → w = { v with len := v.len + tail.length } → w.WF m → w.read m = pre ++ suf ++ tail →
    ∃ m' w', Vec.forEachMutableLoopC v (setAndPush grow f h) suf.length pre.length ⟨m, w, t⟩ = .ok () ⟨m', w', t⟩ ∧ w'.WF m' ∧
      w'.read m' = pre ++ (suf.take (w.cap - w.len + 1)).map f ++ suf.drop (w.cap - w.len + 1) ++ tail ++ suf.map h ∧ v.read m' = pre ++ suf.map f := by
  induction suf with
  | nil => intro pre tail m w t h1 _ hw h2; exact ⟨m, w, rfl, hw, by simpa using h2, by simpa using h1⟩
  | cons x suf ih =>
    intro pre tail m w t h1 hwv hw h2
    obtain ⟨s1, s2, s3⟩ := read_set_mid (f x) h1
    have h2' : w.read m = pre ++ x :: (suf ++ tail) := by rw [h2]; simp
    obtain ⟨u1, _, _⟩ := read_set_mid (f x) h2'
    have hoff : w.off = v.off := by rw [hwv]
    have hcap : w.cap = v.cap := by rw [hwv]
    have hlen : w.len = v.len + tail.length := by rw [hwv]
    rw [hoff] at u1
    have hw1 : w.WF (m.write (v.off + pre.length) [f x]) := hw
    have hW1 := hw.1
    have hW2 := hw.2
    obtain ⟨m1, w1, e, p1, p2, p3, p4, p5, p6, p7⟩ := push_apart grow (h x) t (v := v) hw1 (by simp only [Mem.write_top]; omega) (.inl ⟨hoff, hcap, by omega⟩)
    have step : ∀ r, Vec.forEachMutableLoopC v (setAndPush grow f h) suf.length (pre.length + 1) ⟨m1, w1, t⟩ = r →
        Vec.forEachMutableLoopC v (setAndPush grow f h) (x :: suf).length pre.length ⟨m, w, t⟩ = r := by
      intro r hr
      simp only [List.length_cons, Vec.forEachMutableLoopC, GoM.bind_def, CS.addr_elem v _ pre.length s3, setAndPush, s2, e]
      exact hr
    by_cases hz : w.len < w.cap
    · have hw1' := p6 hz
      obtain ⟨m', w', e', q1, q2, q3⟩ := ih (pre ++ [f x]) (tail ++ [h x]) m1 w1 t (by rw [p3, s1]; simp)
        (by rw [hw1', hwv]; simp [Nat.add_assoc]) p1 (by rw [p2, u1]; simp)
      refine ⟨m', w', step _ (by simpa using e'), q1, ?_, by rw [q3]; simp⟩
      have hc : w1.cap - w1.len + 1 = w.cap - w.len := by rw [hw1']; simp; omega
      rw [q2, hc]
      simp
    · obtain ⟨m', w', e', q1, q2, q3⟩ := mutable_moved grow f h v suf (pre ++ [f x]) m1 w1 t (by rw [p3, s1]; simp) p1
        (by simp at p4; omega) (by have := p7 (by omega); simp at this; omega)
      refine ⟨m', w', step _ (by simpa using e'), q1, ?_, by rw [q3]; simp⟩
      have hc : w.cap - w.len + 1 = 1 := by omega
      rw [q2, hc, p2, u1]
      simp

omit [GoZero T] in
theorem read_store (v : Sl) (m : Mem T) (j : Nat) (x : T) (hj : j < v.len) : v.read (m.write (v.off + j) [x]) = (v.read m).set j x := by
  have h1 := Mem.write_set m v.off (v.read m) j x (by simpa using hj)
  rw [Sl.write_read] at h1
  rw [h1, Sl.read_write_self _ _ _ (by simp)]

/-- `RemoveIf` with a callback that pushes to the vector. -/
theorem removeIf_push_loop (grow : Nat → Nat → Nat) (p : T → Bool) (g : T → T) (v : Sl) (suf : List T) :
    ∀ (i : Nat) (kept : List T) (m : Mem T) (w : Sl) (t : ρ), (v.read m).drop i = suf → (v.read m).take kept.length = kept → kept.length ≤ i →
    w.WF m → v.off + v.len ≤ m.top → Apart v w →
    ∃ m' w', removeIfLoopC v (pushAndAnswer grow p g) suf.length i kept.length ⟨m, w, t⟩ = .ok (kept ++ suf.filter (fun x => !p x)).length ⟨m', w', t⟩ ∧
      m.top ≤ m'.top ∧ (v.read m').take (kept ++ suf.filter (fun x => !p x)).length = kept ++ suf.filter (fun x => !p x) := by
  induction suf with
  | nil => intro i kept m w t _ h2 _ _ _ _; exact ⟨m, w, by simp [removeIfLoopC], Nat.le_refl _, by simpa using h2⟩
  | cons x suf ih =>
    intro i kept m w t h h2 h3 hw ht ha
    obtain ⟨g1, g2, g3⟩ := CS.get_at (ρ := Sl × ρ) v ⟨m, w, t⟩ i h
    obtain ⟨m1, w1, e, p1, p2, p3, p4, p5, _⟩ := push_apart grow (g x) t hw ht ha
    have ec : pushAndAnswer grow p g x ⟨m, w, t⟩ = .ok (p x) ⟨m1, w1, t⟩ := by simp [pushAndAnswer, e]
    simp only [List.length_cons, removeIfLoopC, GoM.bind_def, g1, ec]
    cases hp : p x with
    | true =>
      simp only [Bool.true_eq_false, if_false]
      obtain ⟨m', w', e', q1, q2⟩ := ih (i + 1) kept m1 w1 t (by rw [p3]; exact g3) (by rw [p3]; exact h2) (by omega) p1 (by omega) p5
      exact ⟨m', w', by simpa [hp] using e', by omega, by simpa [hp] using q2⟩
    | false =>
      have hj : kept.length < v.len := by omega
      simp only [if_true, GoM.bind_def, CS.put_elem v _ kept.length x hj, CS.store]
      have hr := read_store v m1 kept.length x hj
      obtain ⟨m', w', e', q1, q2⟩ := ih (i + 1) (kept ++ [x]) (m1.write (v.off + kept.length) [x]) w1 t
        (by rw [hr, List.drop_set_of_lt (by omega), p3]; exact g3)
        (by
          rw [hr, p3, List.set_eq_take_append_cons_drop, if_pos (by simpa using hj), h2]
          simp [List.take_append, List.take_of_length_le])
        (by simp; omega) p1 (by simp; omega) p5
      refine ⟨m', w', ?_, by simp at q1; omega, ?_⟩
      · simpa [hp] using e'
      · simpa [hp] using q2

end Stl4go
