import Verif.Proofs.SkipListMRun
/-!
# Histories of a skip list whose compare function is Go code
-/
namespace Stl4go
variable {K V τ : Type} {cmp : CmpM K τ} {c : K → K → Int}

theorem Holds.inj {sl : SL K V} {l ids m : List _} {less : K → K → Bool} (hi : SLInv less sl ids m) (hl : sl.Holds l) : m = l := by
  have := hi.holds
  rw [SL.Holds, hl] at this
  injection this with this
  exact this.symm

theorem history_any (ha : AgreesWith cmp c) (h : List (Nat × SMOp K V)) (t : τ) :
    ∃ ids l, FallibleRun (LooseStep (SLImpl.func c).same) (CmpPanics cmp) (CmpHangs cmp) [] (opsOf h) (SLM.run cmp ⟨newSkipList, t⟩ h).1 l ∧
      SLLoose (SLM.run cmp ⟨newSkipList, t⟩ h).2.sl ids l ∧ l.length ≤ inserts (opsOf h) ∧
      (3 < (SLM.run cmp ⟨newSkipList, t⟩ h).2.sl.level → 2 ^ ((SLM.run cmp ⟨newSkipList, t⟩ h).2.sl.level - 3) ≤ inserts (opsOf h)) := by
  obtain ⟨ids, l, h1, h2, h3, h4⟩ := SLM.run_fallible (less := fun _ _ => true) ha
    (step := LooseStep (SLImpl.func c).same) (fun hi rnd op => hi.execA (.func c) rnd op) (fun hs => hs.grow) h (n := 0) t
    (SLInv.new (V := V) (fun _ _ => true)) (Nat.le_refl 0) (by simp [newSkipList])
  exact ⟨ids, l, h1, h2, by simpa using h3, by simpa using h4⟩

theorem history_lawful (hc : LawfulCmp c) (ha : AgreesWith cmp c) (h : List (Nat × SMOp K V)) (t : τ) :
    ∃ ids l, FallibleRun (fun m op ob m' => SMap.step (SLImpl.func c).less m op = (ob, m')) (CmpPanics cmp) (CmpHangs cmp) [] (opsOf h)
        (SLM.run cmp ⟨newSkipList, t⟩ h).1 l ∧
      SLInv (SLImpl.func c).less (SLM.run cmp ⟨newSkipList, t⟩ h).2.sl ids l ∧
      (3 < (SLM.run cmp ⟨newSkipList, t⟩ h).2.sl.level → 2 ^ ((SLM.run cmp ⟨newSkipList, t⟩ h).2.sl.level - 3) ≤ inserts (opsOf h)) := by
  have hl : (SLImpl.func c).Lawful := hc
  obtain ⟨ids, l, h1, h2, h3, h4⟩ := SLM.run_fallible (less := (SLImpl.func c).less) ha
    (step := fun m op ob m' => SMap.step (SLImpl.func c).less m op = (ob, m') ∧ m'.length ≤ m.length + inserts [op])
    (fun {sl ids m} hi rnd op => by
      obtain ⟨sl', ids', a1, a2⟩ := hi.exec hl rnd op
      have hi' : SLLoose sl ids m := { hi with sorted := loose_sorted _ }
      obtain ⟨sl2, ids2, m2, ob2, b1, b2, b3⟩ := hi'.execA (.func c) rnd op
      rw [a1] at b1
      injection b1 with b1
      injection b1 with b4 b5
      subst b4
      have := Holds.inj b2 a2.holds
      subst this
      exact ⟨sl', ids', _, _, a1, a2, rfl, b3.grow⟩)
    (fun hs => hs.2) h (n := 0) t (SLInv.new (V := V) _) (Nat.le_refl 0) (by simp [newSkipList])
  refine ⟨ids, l, ?_, h2, by simpa using h4⟩
  clear h2 h3 h4
  generalize ([] : List (K × V)) = l0 at h1
  generalize opsOf h = ops at h1
  generalize (SLM.run cmp ⟨newSkipList, t⟩ h).1 = obs at h1
  induction h1 with
  | nil m => exact .nil m
  | done hs _ ih => exact .done hs.1 ih
  | failed hf _ ih => exact .failed hf ih
  | hung hf => exact .hung hf

theorem level_bound {level n : Nat} (h : 3 < level → 2 ^ (level - 3) ≤ n) : level ≤ n.log2 + 3 := by
  rcases Nat.lt_or_ge 3 level with h3 | h3
  · have h1 := h h3
    have hn : n ≠ 0 := by have := Nat.two_pow_pos (level - 3); omega
    have := (Nat.le_log2 hn).2 h1
    omega
  · omega

theorem callAll_total (ht : ∀ a b t, ∃ r t', cmp a b t = .ok r t') (ps : List (K × K)) : ∀ t, ∃ t', callAll cmp ps t = .ok () t' := by
  induction ps with
  | nil => intro t; exact ⟨t, rfl⟩
  | cons p ps ih =>
    intro t
    obtain ⟨r, t1, e⟩ := ht p.1 p.2 t
    obtain ⟨t2, e2⟩ := ih t1
    exact ⟨t2, by simp only [callAll, GoM.bind_def, e, e2]⟩

/-- If the compare function always returns, the program behaves as in the pure model. -/
theorem SLM.run_total (ha : AgreesWith cmp c) (ht : ∀ a b t, ∃ r t', cmp a b t = .ok r t') (h : List (Nat × SMOp K V)) :
    ∀ {sl sl' : SL K V} {obs : List (SMObs K V)} (t : τ), SL.run (.func c) sl h = .ret (sl', obs) →
      ∃ t', SLM.run cmp ⟨sl, t⟩ h = (obs, ⟨sl', t'⟩) := by
  induction h with
  | nil =>
    intro sl sl' obs t e
    injection e with e; injection e with e1 e2; subst e1 e2
    exact ⟨t, rfl⟩
  | cons o h ih =>
    intro sl sl' obs t e
    obtain ⟨rnd, op⟩ := o
    simp only [SL.run] at e
    obtain ⟨⟨s1, ob⟩, e1, e⟩ := Outcome.bind_ret e
    obtain ⟨⟨s2, obs'⟩, e2, e⟩ := Outcome.bind_ret e
    injection e with e; injection e with e3 e4; subst e3 e4
    have hf := exec_follows ha t e1
    obtain ⟨t1, h1⟩ := callAll_total ht (opCalls c sl op) t
    simp only [Follows, h1] at hf
    obtain ⟨t2, h2⟩ := ih t1 e2
    exact ⟨t2, by simp only [SLM.run, hf, h2]⟩

end Stl4go
