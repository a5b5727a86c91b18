import Verif.Proofs.TransformFill
import Verif.Spec.Transform

/-!
Helper lemmas for C53: `TransformTo` with `b` starting after the start of `a` in the same array.
-/

namespace Stl4go

/-- The state of the loop after the results `rs`. -/
structure Overlap (a b0 : Sl) (op : T → T) (m : Mem T) (rs : List T) (b : Sl) (m1 : Mem T) : Prop where
  read : b.read m1 = rs
  wf : b.WF m1
  top : m.top ≤ m1.top
  fits : rs.length ≤ b0.cap → b = { b0 with len := rs.length } ∧ m1.top = m.top
  moves : b0.cap < rs.length → m.top ≤ b.off
  cells : ∀ k, k < m.top → some (m1.cell k) = if b0.off ≤ k ∧ k < b0.off + min rs.length b0.cap then rs[k - b0.off]? else some (m.cell k)
  chain : ∀ k, k < rs.length →
    rs[k]? = (if b0.off - a.off ≤ k ∧ k < b0.off - a.off + b0.cap then rs[k - (b0.off - a.off)]? else (a.read m)[k]?).map op

theorem Overlap.step [GoZero T] (grow : Nat → Nat → Nat) {a b0 : Sl} {op : T → T} {m : Mem T} {rs : List T} {b : Sl} {m1 : Mem T}
    (ha : a.WF m) (hb0 : b0.WF m) (hov : a.off < b0.off) (hi : rs.length < a.len) (h : Overlap a b0 op m rs b m1) :
    ∃ b' m2, b.append grow [op ((a.read m1)[rs.length]'(by simpa using hi))] m1 = .ok b' m2 ∧
      Overlap a b0 op m (rs ++ [op ((a.read m1)[rs.length]'(by simpa using hi))]) b' m2 := by
  obtain ⟨h1, h2⟩ := ha
  obtain ⟨h3, h4⟩ := hb0
  have hbl : b.len = rs.length := by rw [← h.read]; simp
  have hv : (a.read m1)[rs.length]'(by simpa using hi) = m1.cell (a.off + rs.length) := Sl.read_getElem _ _ _ _
  have hseen : some ((a.read m1)[rs.length]'(by simpa using hi)) =
      if b0.off - a.off ≤ rs.length ∧ rs.length < b0.off - a.off + b0.cap then rs[rs.length - (b0.off - a.off)]? else (a.read m)[rs.length]? := by
    rw [hv, h.cells _ (by omega), Sl.read_getElem?, if_pos hi]
    by_cases hc : b0.off - a.off ≤ rs.length ∧ rs.length < b0.off - a.off + b0.cap
    · rw [if_pos hc, if_pos (by omega)]
      congr 1
      omega
    · rw [if_neg hc, if_neg (by omega)]
  generalize (a.read m1)[rs.length]'(by simpa using hi) = v at hseen hv
  obtain ⟨b', m2, e, g, hl, hin⟩ := Sl.append_spec grow b [op v] m1 h.wf
  refine ⟨b', m2, e, ⟨by rw [g.read, h.read], g.wf, Nat.le_trans h.top g.top, ?_, ?_, ?_, ?_⟩⟩
  · intro hc
    simp only [List.length_append, List.length_singleton] at hc
    obtain ⟨q1, q2⟩ := h.fits (by omega)
    obtain ⟨q3, q4⟩ := hin (by rw [q1]; simpa using hc)
    subst q1
    exact ⟨by simpa using q3, by rw [q4]; simpa using q2⟩
  · intro hc
    simp only [List.length_append, List.length_singleton] at hc
    by_cases hc' : b0.cap < rs.length
    · rcases g.place with ⟨p1, _⟩ | p
      · rw [p1]; exact h.moves hc'
      · exact Nat.le_trans h.top p
    · obtain ⟨q1, q2⟩ := h.fits (by omega)
      rcases g.place with ⟨p1, p2⟩ | p
      · have := g.wf.1
        rw [hl, p2, q1] at this
        simp only [List.length_singleton] at this
        omega
      · omega
  · intro k hk
    simp only [List.length_append, List.length_singleton]
    by_cases hc : rs.length < b0.cap
    · obtain ⟨q1, q2⟩ := h.fits (by omega)
      obtain ⟨q3, q4⟩ := hin (by rw [q1]; simp; omega)
      subst q1
      rw [q4]
      by_cases hk' : k = b0.off + rs.length
      · subst hk'
        have := Mem.write_in m1 (b0.off + rs.length) [op v] 0 (by simp)
        simp only [Nat.add_zero] at this
        rw [this, if_pos (by omega)]
        simp
      · rw [Mem.write_out _ _ _ _ (by simp; omega), h.cells k hk]
        by_cases hr : b0.off ≤ k ∧ k < b0.off + min rs.length b0.cap
        · rw [if_pos hr, if_pos (by omega), List.getElem?_append_left (by omega)]
        · rw [if_neg hr, if_neg (by omega)]
    · have hsame : m2.cell k = m1.cell k := by
        by_cases hc' : b0.cap < rs.length
        · exact g.frame k (Nat.lt_of_lt_of_le hk h.top) (.inl (Nat.lt_of_lt_of_le hk (h.moves hc')))
        · obtain ⟨q1, q2⟩ := h.fits (by omega)
          rcases g.place with ⟨p1, p2⟩ | p
          · have := g.wf.1
            rw [hl, p2, q1] at this
            simp only [List.length_singleton] at this
            omega
          · exact g.prefix_ p k (by omega)
      rw [hsame, h.cells k hk]
      by_cases hr : b0.off ≤ k ∧ k < b0.off + min rs.length b0.cap
      · rw [if_pos hr, if_pos (by omega), List.getElem?_append_left (by omega)]
      · rw [if_neg hr, if_neg (by omega)]
  · intro k hk
    simp only [List.length_append, List.length_singleton] at hk
    by_cases hk' : k < rs.length
    · rw [List.getElem?_append_left hk', List.getElem?_append_left (by omega)]
      exact h.chain k hk'
    · obtain rfl : k = rs.length := by omega
      by_cases hc : b0.off - a.off ≤ rs.length ∧ rs.length < b0.off - a.off + b0.cap
      · rw [if_pos hc] at hseen ⊢
        rw [List.getElem?_append_left (i := rs.length - (b0.off - a.off)) (by omega), ← hseen]
        simp
      · rw [if_neg hc] at hseen ⊢
        rw [← hseen]
        simp

theorem Overlap.loop [GoZero T] (grow : Nat → Nat → Nat) {a b0 : Sl} {op : T → T} {m : Mem T} (ha : a.WF m) (hb0 : b0.WF m) (hov : a.off < b0.off) :
    ∀ (n : Nat) (rs : List T) (b : Sl) (m1 : Mem T), rs.length + n = a.len → Overlap a b0 op m rs b m1 →
      ∃ rs' b' m2, transformToLoop grow (fun i => a.get i) (fun (_ : Unit) v => ((), op v)) n rs.length () b m1 = .ok ((), b') m2 ∧
        rs'.length = a.len ∧ Overlap a b0 op m rs' b' m2 := by
  intro n
  induction n with
  | zero => intro rs b m1 hn h; exact ⟨rs, b, m1, rfl, by omega, h⟩
  | succ n ih =>
    intro rs b m1 hn h
    obtain ⟨b', m2, e, h'⟩ := h.step grow ha hb0 hov (by omega)
    obtain ⟨rs', b'', m3, e2, hl, h''⟩ := ih _ b' m2 (by simp; omega) h'
    refine ⟨rs', b'', m3, ?_, hl, h''⟩
    simp only [List.length_append, List.length_singleton] at e2
    simp only [transformToLoop, GoM.bind_def, Sl.get_ok a m1 rs.length (by omega), e, e2]

theorem transformTo_overlap [GoZero T] (grow : Nat → Nat → Nat) (a b : Sl) (op : T → T) (m : Mem T) (ha : a.WF m) (hb : b.WF m) (hov : a.off < b.off) :
    ∃ rs r m', transformTo grow a (fun (_ : Unit) v => ((), op v)) () b m = .ok ((), r) m' ∧ rs.length = a.len ∧ Overlap a b op m rs r m' := by
  have hs := Sl.slice_ok b m 0 0 (Nat.le_refl _) (Nat.zero_le _)
  have h0 : Overlap a b op m [] { b with len := 0 } m :=
    ⟨by simp [Sl.read], ⟨Nat.zero_le _, hb.2⟩, Nat.le_refl _, fun _ => ⟨rfl, rfl⟩, fun h => by simp at h,
      fun k _ => by rw [if_neg (by simp)], fun k h => by simp at h⟩
  obtain ⟨rs', b', m2, e, hl, h⟩ := h0.loop grow ha hb hov a.len [] _ m (by simp)
  refine ⟨rs', b', m2, ?_, hl, h⟩
  simp only [List.length_nil] at e
  simp only [transformTo, GoM.bind_def]
  have hs' : b.slice 0 0 m = .ok { b with len := 0 } m := hs
  rw [hs']
  exact e

end Stl4go
