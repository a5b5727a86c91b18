import Verif.Proofs.SkipListMSafe
import Verif.Proofs.SkipListMHist
import Verif.Proofs.SkipListRange
/-! # `FindRange` with a compare function that is Go code -/
namespace Stl4go
variable {K V τ : Type} {cmp : CmpM K τ} {c : K → K → Int} {sl : SL K V} {ids : List Nat} {m : List (K × V)}

/-- A search that follows the pure one either returns what that returns, or fails because of the compare function. -/
theorem Follows.effect {α : Type} {ps : List (K × K)} {x : GoM (SLS K V τ) α} {t : τ} {a : α} {key : K} {P : α → Prop}
    (h : Follows cmp ps x ⟨sl, t⟩ sl a) (hs : Safe cmp key sl P (x ⟨sl, t⟩)) : Safe cmp key sl (fun b => b = a) (x ⟨sl, t⟩) := by
  unfold Follows at h
  cases hc : callAll cmp ps t with
  | ok u t1 => simp only [hc] at h; rw [h]; exact ⟨rfl, rfl⟩
  | panic t1 =>
    simp only [hc] at h
    obtain ⟨_, _, h⟩ := h
    rw [h] at hs ⊢; exact hs
  | diverge => simp only [hc] at h; rw [h] at hs ⊢; exact hs

theorem SLInv.findRange_effect (hc : LawfulCmp c) (ha : AgreesWith cmp c) (h : SLInv (SLImpl.func c).less sl ids m) (first last : K) (t : τ) :
    match SLM.findRange cmp first last ⟨sl, t⟩ with
    | .ok it s => s.sl = sl ∧ s.sl.observeIter it =
        if ∃ e ∈ m, c last e.1 < 0 ∧ c e.1 first < 0 then .panic else .ret (m.filter (fun e => !decide (c e.1 first < 0) && !decide (c last e.1 < 0)))
    | .panic s => s.sl = sl ∧ ∃ a u u', cmp a first u = .panic u' ∨ cmp a last u = .panic u'
    | .diverge => ∃ a u, cmp a first u = .diverge ∨ cmp a last u = .diverge := by
  have hl : (SLImpl.func c).Lawful := hc
  obtain ⟨iG1, iH1, iS1, G1, H1, S1, p1⟩ := h.pos hl first
  obtain ⟨iG2, iH2, iS2, G2, H2, S2, p2⟩ := h.pos hl last
  have e1 := h.lowerBound hl p1
  have e2 := h.upperBound hl p2
  have ho := h.findRange hl first last
  simp only [SL.findRange, e1, e2, Outcome.ret_bind, Outcome.pure_eq] at ho
  have f1 := (lowerBound_follows ha t e1).effect (h.lowerBound_safe t)
  simp only [SLM.findRange, GoM.bind_def]
  revert f1
  cases SLM.lowerBound cmp first ⟨sl, t⟩ with
  | panic s => rintro ⟨rfl, a, u, u', e⟩; exact ⟨rfl, a, u, u', .inl e⟩
  | diverge => rintro ⟨a, u, e⟩; exact ⟨a, u, .inl e⟩
  | ok a s =>
    obtain ⟨s, t1⟩ := s
    rintro ⟨hs, rfl⟩
    simp only at hs
    subst hs
    have f2 := (upperBound_follows ha t1 e2).effect (h.upperBound_safe t1)
    revert f2
    simp only
    cases SLM.upperBound cmp last ⟨s, t1⟩ with
    | panic s => rintro ⟨rfl, a, u, u', e⟩; exact ⟨rfl, a, u, u', .inr e⟩
    | diverge => rintro ⟨a, u, e⟩; exact ⟨a, u, .inr e⟩
    | ok b s2 =>
      obtain ⟨s2, t2⟩ := s2
      rintro ⟨hs, rfl⟩
      simp only at hs
      subst hs
      refine ⟨rfl, ho.trans ?_⟩
      by_cases hx : ∃ e ∈ m, c last e.1 < 0 ∧ c e.1 first < 0
      · rw [if_pos hx, if_pos]; simpa [SLImpl.less] using hx
      · rw [if_neg hx, if_neg]
        · rfl
        · simpa [SLImpl.less] using hx

end Stl4go
