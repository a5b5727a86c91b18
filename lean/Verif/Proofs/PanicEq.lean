import Verif.Spec.PanicEq
import Verif.Proofs.TransformCopy
import Verif.Model.Lookup
import Verif.Model.Compute
import Verif.Model.Compare
/-! # Lemmas for element types whose `==` can panic -/
namespace Stl4go
variable {T : Type} [GoEqP T]

theorem eqM_some {x y : T} {b : Bool} (h : GoEqP.eq x y = some b) (m : Mem T) : eqM x y m = .ok b m := by simp [eqM, h]
theorem eqM_none {x y : T} (h : GoEqP.eq x y = none) (m : Mem T) : eqM x y m = .panic m := by simp [eqM, h]

/-! ## Specifications of the loops, on lists -/

/-- Elements not equal to `x`, until a comparison panics. -/
def rejectP (x : T) : List T → List T × Bool
  | [] => ([], false)
  | v :: s =>
    match GoEqP.eq v x with
    | none => ([], true)
    | some true => rejectP x s
    | some false => (v :: (rejectP x s).1, (rejectP x s).2)

def substP (old new : T) : List T → List T × Bool
  | [] => ([], false)
  | v :: s =>
    match GoEqP.eq v old with
    | none => (v :: s, true)
    | some true => (new :: (substP old new s).1, (substP old new s).2)
    | some false => (v :: (substP old new s).1, (substP old new s).2)

omit [GoEqP T] in
theorem FirstOther.succ {r : Option Bool} {l : List (Option Bool)} {usual : Option Bool → Prop} {i : Nat} {a : Option Bool} (hr : usual r)
    (h : FirstOther l usual i a) : FirstOther (r :: l) usual (i + 1) a := by
  refine ⟨by simpa using h.1, h.2.1, fun j q hj hq => ?_⟩
  cases j with
  | zero => simp at hq; subst hq; exact hr
  | succ j => exact h.2.2 j q (by omega) (by simpa using hq)

omit [GoEqP T] in
theorem FirstOther.zero {r : Option Bool} {l : List (Option Bool)} {usual : Option Bool → Prop} (hr : ¬ usual r) : FirstOther (r :: l) usual 0 r :=
  ⟨by simp, hr, fun j _ hj => by omega⟩

omit [GoEqP T] in
/-- There is only one first place. -/
theorem FirstOther.unique {l : List (Option Bool)} {usual : Option Bool → Prop} {i j : Nat} {r q : Option Bool} (h1 : FirstOther l usual i r)
    (h2 : FirstOther l usual j q) : i = j ∧ r = q := by
  have : i = j := by
    rcases Nat.lt_trichotomy i j with h | h | h
    · exact absurd (h2.2.2 i r h h1.1) h1.2.1
    · exact h
    · exact absurd (h1.2.2 j q h h2.1) h2.2.1
  subst this
  exact ⟨rfl, by have := h1.1.symm.trans h2.1; simpa using this⟩

/-- What `rejectP` gives. -/
theorem rejectP_spec (x : T) (s : List T) :
    (∀ i, FirstPanic (s.map (GoEqP.eq · x)) i → rejectP x s = ((s.take i).filter (fun v => GoEqP.eq v x == some false), true))
      ∧ ((∀ v ∈ s, GoEqP.eq v x ≠ none) → rejectP x s = (s.filter (fun v => GoEqP.eq v x == some false), false)) := by
  induction s with
  | nil => exact ⟨fun i h => by simp [FirstPanic, FirstOther] at h, fun _ => rfl⟩
  | cons v s ih =>
    refine ⟨fun i h => ?_, fun h => ?_⟩
    · obtain ⟨h1, _, h3⟩ := h
      cases i with
      | zero =>
        have : GoEqP.eq v x = none := by simpa using h1
        simp [rejectP, this]
      | succ i =>
        have hv : GoEqP.eq v x ≠ none := h3 0 _ (by omega) (by simp)
        have := ih.1 i ⟨by simpa using h1, by simp, fun j r hj hr => h3 (j + 1) r (by omega) (by simpa using hr)⟩
        rcases hq : GoEqP.eq v x with _ | b
        · exact absurd hq hv
        · cases b <;> simp [rejectP, hq, this]
    · have := ih.2 (fun w hw => h w (by simp [hw]))
      have hv := h v (by simp)
      rcases hq : GoEqP.eq v x with _ | b
      · exact absurd hq hv
      · cases b <;> simp [rejectP, hq, this]

theorem substP_length (old new : T) (s : List T) : (substP old new s).1.length = s.length := by
  induction s with
  | nil => rfl
  | cons v s ih =>
    rcases hq : GoEqP.eq v old with _ | b
    · simp [substP, hq]
    · cases b <;> simp [substP, hq, ih]

/-- One element after `Replace`. -/
def substE (old new v : T) : T := if GoEqP.eq v old = some true then new else v

theorem substP_spec (old new : T) (s : List T) :
    (∀ i, FirstPanic (s.map (GoEqP.eq · old)) i → substP old new s = ((s.take i).map (substE old new) ++ s.drop i, true))
      ∧ ((∀ v ∈ s, GoEqP.eq v old ≠ none) → substP old new s = (s.map (substE old new), false)) := by
  induction s with
  | nil => exact ⟨fun i h => by simp [FirstPanic, FirstOther] at h, fun _ => rfl⟩
  | cons v s ih =>
    refine ⟨fun i h => ?_, fun h => ?_⟩
    · obtain ⟨h1, _, h3⟩ := h
      cases i with
      | zero =>
        have : GoEqP.eq v old = none := by simpa using h1
        simp [substP, this]
      | succ i =>
        have hv : GoEqP.eq v old ≠ none := h3 0 _ (by omega) (by simp)
        have := ih.1 i ⟨by simpa using h1, by simp, fun j r hj hr => h3 (j + 1) r (by omega) (by simpa using hr)⟩
        rcases hq : GoEqP.eq v old with _ | b
        · exact absurd hq hv
        · cases b <;> simp [substP, hq, this, substE]
    · have := ih.2 (fun w hw => h w (by simp [hw]))
      have hv := h v (by simp)
      rcases hq : GoEqP.eq v old with _ | b
      · exact absurd hq hv
      · cases b <;> simp [substP, hq, this, substE]

omit [GoEqP T] in
theorem firstPanic_or (s : List (Option Bool)) : (∃ i, FirstPanic s i) ∨ ∀ r ∈ s, r ≠ none := by
  induction s with
  | nil => right; simp
  | cons r s ih =>
    rcases r with _ | b
    · exact .inl ⟨0, FirstOther.zero (by simp)⟩
    · rcases ih with ⟨i, h⟩ | h
      · exact .inl ⟨i + 1, FirstOther.succ (by simp) h⟩
      · right
        intro r hr
        rcases List.mem_cons.mp hr with rfl | hr
        · simp
        · exact h r hr

/-! ## Loops that only read -/

theorem findPLoop_eq (a : Sl) (x : T) (m : Mem T) (suf : List T) : ∀ (pre : List T), a.read m = pre ++ suf →
    (∃ i, FirstOther (suf.map (GoEqP.eq · x)) (· = some false) i (some true) ∧ findPLoop a x suf.length pre.length m = .ok (((pre.length + i : Nat) : Int), true) m
        ∧ indexPLoop a x suf.length pre.length m = .ok ((pre.length + i : Nat) : Int) m)
      ∨ (∃ i, FirstOther (suf.map (GoEqP.eq · x)) (· = some false) i none ∧ findPLoop a x suf.length pre.length m = .panic m
        ∧ indexPLoop a x suf.length pre.length m = .panic m)
      ∨ ((∀ v ∈ suf, GoEqP.eq v x = some false) ∧ findPLoop a x suf.length pre.length m = .ok (-1, false) m
        ∧ indexPLoop a x suf.length pre.length m = .ok (-1) m) := by
  induction suf with
  | nil => intro pre _; exact .inr (.inr ⟨by simp, rfl, rfl⟩)
  | cons v suf ih =>
    intro pre hr
    have hl : a.len = pre.length + (suf.length + 1) := by rw [← Sl.read_length m a, hr]; simp
    have hg := Sl.get_ok a m pre.length (by omega)
    simp only [hr, List.getElem_append_right (Nat.le_refl _), Nat.sub_self, List.getElem_cons_zero] at hg
    simp only [List.length_cons, findPLoop, indexPLoop, GoM.bind_def, hg, List.map_cons]
    rcases hq : GoEqP.eq v x with _ | b
    · simp only [eqM_none hq]
      exact .inr (.inl ⟨0, FirstOther.zero (by simp), trivial, trivial⟩)
    · simp only [eqM_some hq]
      cases b
      · have := ih (pre ++ [v]) (by simp [hr])
        simp only [List.length_append, List.length_singleton] at this
        simp only [Bool.false_eq_true, if_false]
        rcases this with ⟨i, h1, h2⟩ | ⟨i, h1, h2⟩ | ⟨h1, h2⟩
        · refine .inl ⟨i + 1, h1.succ rfl, ?_⟩
          rw [show pre.length + (i + 1) = pre.length + 1 + i by omega]
          exact h2
        · exact .inr (.inl ⟨i + 1, h1.succ rfl, h2⟩)
        · exact .inr (.inr ⟨by simpa [hq] using h1, h2⟩)
      · exact .inl ⟨0, FirstOther.zero (by simp), by simp [GoM.pure_apply], by simp [GoM.pure_apply]⟩

theorem countPLoop_eq (a : Sl) (x : T) (m : Mem T) (suf : List T) : ∀ (pre : List T) (c : Nat), a.read m = pre ++ suf →
    ((∀ v ∈ suf, GoEqP.eq v x ≠ none) → countPLoop a x suf.length pre.length c m = .ok (c + suf.countP (fun v => GoEqP.eq v x == some true)) m)
      ∧ ((∃ v ∈ suf, GoEqP.eq v x = none) → countPLoop a x suf.length pre.length c m = .panic m) := by
  induction suf with
  | nil => intro pre c _; exact ⟨fun _ => rfl, fun h => by simp at h⟩
  | cons v suf ih =>
    intro pre c hr
    have hl : a.len = pre.length + (suf.length + 1) := by rw [← Sl.read_length m a, hr]; simp
    have hg := Sl.get_ok a m pre.length (by omega)
    simp only [hr, List.getElem_append_right (Nat.le_refl _), Nat.sub_self, List.getElem_cons_zero] at hg
    simp only [List.length_cons, countPLoop, GoM.bind_def, hg]
    rcases hq : GoEqP.eq v x with _ | b
    · simp only [eqM_none hq]
      exact ⟨fun h => absurd hq (h v (by simp)), fun _ => trivial⟩
    · simp only [eqM_some hq]
      have key : ∀ c', _ := fun c' => ih (pre ++ [v]) c' (by simp [hr])
      simp only [List.length_append, List.length_singleton] at key
      have hex : (∃ w ∈ v :: suf, GoEqP.eq w x = none) → ∃ w ∈ suf, GoEqP.eq w x = none := by
        rintro ⟨w, hw, h⟩
        rcases List.mem_cons.mp hw with rfl | hw
        · rw [hq] at h; cases h
        · exact ⟨w, hw, h⟩
      cases b
      · simp only [Bool.false_eq_true, if_false]
        refine ⟨fun h => ?_, fun h => (key c).2 (hex h)⟩
        rw [(key c).1 (fun w hw => h w (by simp [hw]))]
        simp [hq]
      · simp only [if_true]
        refine ⟨fun h => ?_, fun h => (key (c + 1)).2 (hex h)⟩
        rw [(key (c + 1)).1 (fun w hw => h w (by simp [hw]))]
        simp [hq]
        omega

theorem equalPLoop_eq (a b : Sl) (m : Mem T) (hab : a.len = b.len) (n : Nat) : ∀ i, i + n = a.len →
    (∃ k, FirstOther ((List.zipWith GoEqP.eq (a.read m) (b.read m)).drop i) (· = some true) k (some false) ∧ equalPLoop a b n i m = .ok false m)
      ∨ (∃ k, FirstOther ((List.zipWith GoEqP.eq (a.read m) (b.read m)).drop i) (· = some true) k none ∧ equalPLoop a b n i m = .panic m)
      ∨ ((∀ r ∈ (List.zipWith GoEqP.eq (a.read m) (b.read m)).drop i, r = some true) ∧ equalPLoop a b n i m = .ok true m) := by
  induction n with
  | zero =>
    intro i hi
    refine .inr (.inr ⟨?_, rfl⟩)
    rw [List.drop_eq_nil_of_le (by simp; omega)]
    simp
  | succ n ih =>
    intro i hi
    have hza : i < (a.read m).length := by simp; omega
    have hzb : i < (b.read m).length := by simp; omega
    have hd : (List.zipWith GoEqP.eq (a.read m) (b.read m)).drop i =
        GoEqP.eq ((a.read m)[i]) ((b.read m)[i]) :: (List.zipWith GoEqP.eq (a.read m) (b.read m)).drop (i + 1) := by
      rw [List.drop_eq_getElem_cons (by simp; omega)]
      simp
    have hga := Sl.get_ok a m i (by omega)
    have hgb := Sl.get_ok b m i (by omega)
    simp only [equalPLoop, GoM.bind_def, hga, hgb, hd]
    rcases hq : GoEqP.eq ((a.read m)[i]) ((b.read m)[i]) with _ | e
    · simp only [eqM_none hq]
      exact .inr (.inl ⟨0, FirstOther.zero (by simp), trivial⟩)
    · simp only [eqM_some hq]
      cases e
      · exact .inl ⟨0, FirstOther.zero (by simp), by simp [GoM.pure_apply]⟩
      · simp only [Bool.true_eq_false, if_false]
        rcases ih (i + 1) (by omega) with ⟨k, h1, h2⟩ | ⟨k, h1, h2⟩ | ⟨h1, h2⟩
        · exact .inl ⟨k + 1, h1.succ rfl, h2⟩
        · exact .inr (.inl ⟨k + 1, h1.succ rfl, h2⟩)
        · exact .inr (.inr ⟨by simpa using h1, h2⟩)

/-! ## Loops that write -/

/-- The result of a loop: it panicked or gave a value. -/
def done {α : Type} (bad : Bool) (v : α) (m : Mem T) : Res (Mem T) α := if bad = true then .panic m else .ok v m

theorem replacePLoop_eq (a : Sl) (old new : T) (m : Mem T) (suf : List T) : ∀ (pre : List T), a.len = (pre ++ suf).length →
    replacePLoop a old new suf.length pre.length (m.write a.off (pre ++ suf)) =
      done (substP old new suf).2 () (m.write a.off (pre ++ (substP old new suf).1)) := by
  induction suf with
  | nil => intro pre _; rfl
  | cons v suf ih =>
    intro pre h
    simp only [List.length_cons, replacePLoop, GoM.bind_def, Sl.get_mid a m pre suf v h]
    rcases hq : GoEqP.eq v old with _ | b
    · simp [eqM_none hq, substP, hq, done]
    · simp only [eqM_some hq]
      cases b
      · have := ih (pre ++ [v]) (by simp at h ⊢; omega)
        simp only [List.length_append, List.length_singleton, List.append_assoc, List.singleton_append] at this
        simp [this, substP, hq]
      · simp only [if_true, GoM.bind_def, Sl.put_mid a m pre suf v new h]
        have := ih (pre ++ [new]) (by simp at h ⊢; omega)
        simp only [List.length_append, List.length_singleton, List.append_assoc, List.singleton_append] at this
        simp [this, substP, hq]

omit [GoEqP T] in
theorem over_set (kept s : List T) (v : T) (h : kept.length < s.length) : (over kept s).set kept.length v = over (kept ++ [v]) s := by
  unfold over
  rw [List.set_append_right _ _ (Nat.le_refl _), Nat.sub_self, List.drop_eq_getElem_cons h, List.set_cons_zero]
  simp

omit [GoEqP T] in
theorem over_length (kept s : List T) (h : kept.length ≤ s.length) : (over kept s).length = s.length := by
  simp [over]; omega

omit [GoEqP T] in
theorem over_get (kept s : List T) (k : Nat) (hk : k < s.length) (h : kept.length ≤ k) (hk' : k < (over kept s).length) : (over kept s)[k] = s[k] := by
  simp only [over]
  rw [List.getElem_append_right h, List.getElem_drop]
  congr 1
  omega

omit [GoEqP T] in
theorem over_nil (s : List T) : over [] s = s := rfl

theorem removePLoop_eq (a : Sl) (x : T) (m : Mem T) (s : List T) (hs : s.length = a.len) (n : Nat) : ∀ (k : Nat) (kept : List T),
    k + n = s.length → kept.length ≤ k →
    removePLoop a x n k kept.length (m.write a.off (over kept s)) =
      done (rejectP x (s.drop k)).2 (kept ++ (rejectP x (s.drop k)).1).length (m.write a.off (over (kept ++ (rejectP x (s.drop k)).1) s)) := by
  induction n with
  | zero =>
    intro k kept hk _
    rw [List.drop_eq_nil_of_le (by omega)]
    simp [removePLoop, rejectP, done, GoM.pure_apply]
  | succ n ih =>
    intro k kept hk hkk
    have hks : k < s.length := by omega
    have hlen := over_length kept s (by omega)
    simp only [removePLoop, GoM.bind_def]
    rw [Sl.get_write a m (over kept s) (by omega) k (by omega)]
    simp only [over_get kept s k hks hkk (by omega)]
    rw [List.drop_eq_getElem_cons hks]
    rcases hq : GoEqP.eq s[k] x with _ | b
    · simp [eqM_none hq, rejectP, hq, done]
    · simp only [eqM_some hq]
      cases b
      · simp only [if_true, GoM.bind_def]
        rw [Sl.put_write a m (over kept s) (by omega) kept.length _ (by omega), over_set kept s _ (by omega)]
        have := ih (k + 1) (kept ++ [s[k]]) (by omega) (by simp; omega)
        simp only [List.length_append, List.length_singleton] at this
        simp only [this, rejectP, hq]
        simp [Nat.add_assoc, Nat.add_comm]
      · have := ih (k + 1) kept (by omega) (by omega)
        simp [this, rejectP, hq]

theorem uniquePLoop_eq (a : Sl) (c : Nat) (m : Mem T) (s : List T) (hs : s.length = a.len) (n : Nat) : ∀ (k : Nat) (kept : List T) (prev : T),
    k + 1 + n = s.length → kept.length ≤ k + 1 →
    uniquePLoop a { off := a.off + 1, len := a.len - 1, cap := c } n k kept.length prev (m.write a.off (over kept s)) =
      done (runsP prev (s.drop (k + 1))).2 (kept ++ (runsP prev (s.drop (k + 1))).1).length
        (m.write a.off (over (kept ++ (runsP prev (s.drop (k + 1))).1) s)) := by
  induction n with
  | zero =>
    intro k kept prev hk _
    rw [List.drop_eq_nil_of_le (by omega)]
    simp [uniquePLoop, runsP, done, GoM.pure_apply]
  | succ n ih =>
    intro k kept prev hk hkk
    have hks : k + 1 < s.length := by omega
    have hlen := over_length kept s (by omega)
    simp only [uniquePLoop, GoM.bind_def]
    rw [Sl.get_tail _ _ _ (by omega)]
    rw [Sl.get_write a m (over kept s) (by omega) (k + 1) (by omega)]
    simp only [over_get kept s (k + 1) hks hkk (by omega)]
    rw [List.drop_eq_getElem_cons hks]
    rcases hq : GoEqP.eq s[k + 1] prev with _ | b
    · simp [eqM_none hq, runsP, hq, done]
    · simp only [eqM_some hq]
      cases b
      · simp only [if_true, GoM.bind_def]
        rw [Sl.put_write a m (over kept s) (by omega) kept.length _ (by omega), over_set kept s _ (by omega)]
        have := ih (k + 1) (kept ++ [s[k + 1]]) s[k + 1] (by omega) (by simp; omega)
        simp only [List.length_append, List.length_singleton] at this
        simp only [this, runsP, hq]
        simp [Nat.add_assoc, Nat.add_comm]
      · have := ih (k + 1) kept prev (by omega) (by omega)
        simp [this, runsP, hq]

theorem removeCopyPLoop_eq [GoZero T] (grow : Nat → Nat → Nat) (a : Sl) (x : T) (m : Mem T) (ha : a.WF m) (suf : List T) :
    ∀ (pre : List T) (r : Sl) (m' : Mem T), a.read m = pre ++ suf → Fresh m m' r →
      ∃ r' m'', removeCopyPLoop grow a x suf.length pre.length r m' = done (rejectP x suf).2 r' m'' ∧ Fresh m m'' r'
        ∧ r'.read m'' = r.read m' ++ (rejectP x suf).1 := by
  induction suf with
  | nil => intro pre r m' _ h; exact ⟨r, m', rfl, h, by simp [rejectP]⟩
  | cons v suf ih =>
    intro pre r m' hr h
    simp only [List.length_cons, removeCopyPLoop, GoM.bind_def]
    rw [h.get_old ha pre.length (by simp [hr])]
    simp only [hr, List.getElem_append_right (Nat.le_refl _), Nat.sub_self, List.getElem_cons_zero]
    rcases hq : GoEqP.eq v x with _ | b
    · exact ⟨r, m', by simp [eqM_none hq, rejectP, hq, done], h, by simp [rejectP, hq]⟩
    · simp only [eqM_some hq]
      cases b
      · obtain ⟨r1, m1, e1, h1, hr1, _⟩ := h.append grow [v]
        obtain ⟨r2, m2, e2, h2, hr2⟩ := ih (pre ++ [v]) r1 m1 (by simp [hr]) h1
        simp only [List.length_append, List.length_singleton] at e2
        refine ⟨r2, m2, ?_, h2, by rw [hr2, hr1]; simp [rejectP, hq]⟩
        simp [GoM.bind_def, e1, e2, rejectP, hq]
      · obtain ⟨r2, m2, e2, h2, hr2⟩ := ih (pre ++ [v]) r m' (by simp [hr]) h
        simp only [List.length_append, List.length_singleton] at e2
        exact ⟨r2, m2, by simp [e2, rejectP, hq], h2, by rw [hr2]; simp [rejectP, hq]⟩

theorem uniqueCopyPLoop_eq [GoZero T] (grow : Nat → Nat → Nat) (a : Sl) (m : Mem T) (ha : a.WF m) (suf : List T) :
    ∀ (pre acc : List T) (prev : T) (r : Sl) (m' : Mem T), a.read m = pre ++ suf → Fresh m m' r → r.read m' = acc ++ [prev] →
      ∃ r' m'', uniqueCopyPLoop grow a suf.length pre.length r m' = done (runsCopyP prev suf).2 r' m''
        ∧ Fresh m m'' r' ∧ r'.read m'' = acc ++ [prev] ++ (runsCopyP prev suf).1 := by
  induction suf with
  | nil => intro pre acc prev r m' _ h hr; exact ⟨r, m', rfl, h, by simp [runsCopyP, hr]⟩
  | cons v suf ih =>
    intro pre acc prev r m' hr h hacc
    have hlen : r.len = acc.length + 1 := by rw [← Sl.read_length m' r, hacc]; simp
    simp only [List.length_cons, uniqueCopyPLoop, GoM.bind_def]
    rw [h.get_old ha pre.length (by simp [hr])]
    simp only [hr, List.getElem_append_right (Nat.le_refl _), Nat.sub_self, List.getElem_cons_zero]
    rw [if_pos (by omega)]
    have hg : r.get ((r.len : Int) - 1) m' = .ok prev m' := by
      rw [show ((r.len : Int) - 1) = ((acc.length : Nat) : Int) by omega, Sl.get_ok _ _ _ (by omega)]
      congr 1
      simp [hacc]
    simp only [GoM.bind_def, hg]
    rcases hq : GoEqP.eq prev v with _ | b
    · exact ⟨r, m', by simp [eqM_none hq, runsCopyP, hq, done], h, by simp [runsCopyP, hq, hacc]⟩
    · simp only [eqM_some hq]
      cases b
      · obtain ⟨r1, m1, e1, h1, hr1, _⟩ := h.append grow [v]
        obtain ⟨r2, m2, e2, h2, hr2⟩ := ih (pre ++ [v]) (acc ++ [prev]) v r1 m1 (by simp [hr]) h1 (by rw [hr1, hacc])
        simp only [List.length_append, List.length_singleton] at e2
        refine ⟨r2, m2, ?_, h2, by rw [hr2]; simp [runsCopyP, hq]⟩
        simp [GoM.bind_def, e1, e2, runsCopyP, hq]
      · obtain ⟨r2, m2, e2, h2, hr2⟩ := ih (pre ++ [v]) acc prev r m' (by simp [hr]) h hacc
        simp only [List.length_append, List.length_singleton] at e2
        exact ⟨r2, m2, by simp [e2, runsCopyP, hq], h2, by rw [hr2]; simp [runsCopyP, hq]⟩

/-! ## Whole functions -/

theorem replaceP_eq (a : Sl) (old new : T) (m : Mem T) :
    replaceP a old new m = done (substP old new (a.read m)).2 () (m.write a.off (substP old new (a.read m)).1) := by
  have := replacePLoop_eq a old new m (a.read m) [] (by simp)
  simp only [List.nil_append, List.length_nil, Sl.read_length, Sl.write_read] at this
  exact this

theorem rejectP_length (x : T) (s : List T) : (rejectP x s).1.length ≤ s.length := by
  induction s with
  | nil => simp [rejectP]
  | cons v s ih =>
    rcases hq : GoEqP.eq v x with _ | b
    · simp [rejectP, hq]
    · cases b <;> simp [rejectP, hq] <;> omega

theorem runsP_length (s : List T) : ∀ (p : T), (runsP p s).1.length ≤ s.length := by
  induction s with
  | nil => simp [runsP]
  | cons v s ih =>
    intro p
    rcases hq : GoEqP.eq v p with _ | b
    · simp [runsP, hq]
    · cases b
      · simpa [runsP, hq] using ih v
      · have := ih p
        simp [runsP, hq]; omega

theorem removeP_eq (a : Sl) (x : T) (m : Mem T) (ha : a.WF m) :
    removeP a x m = done (rejectP x (a.read m)).2 { a with len := (rejectP x (a.read m)).1.length }
      (m.write a.off (over (rejectP x (a.read m)).1 (a.read m))) := by
  have := removePLoop_eq a x m (a.read m) (by simp) a.len 0 [] (by simp) (by simp)
  simp only [List.length_nil, over_nil, Sl.write_read, List.drop_zero, List.nil_append] at this
  have hlen := rejectP_length x (a.read m)
  have hc := ha.1
  simp only [Sl.read_length] at hlen
  simp only [removeP, GoM.bind_def, this]
  cases (rejectP x (a.read m)).2
  · simp only [done, Bool.false_eq_true, if_false]
    rw [Sl.slice_zero _ _ _ (by omega)]
  · simp [done]

theorem uniqueP_eq (a : Sl) (m : Mem T) (ha : a.WF m) (x : T) (s : List T) (hr : a.read m = x :: s) :
    uniqueP a m = done (runsP x s).2 { a with len := (runsP x s).1.length + 1 } (m.write a.off (over (x :: (runsP x s).1) (a.read m))) := by
  have hl : a.len = s.length + 1 := by rw [← Sl.read_length m a, hr]; simp
  have hg := Sl.get_ok a m 0 (by omega)
  simp only [hr, List.getElem_cons_zero] at hg
  have hc := ha.1
  have hsl := Sl.slice_ok a m 1 a.len (by omega) hc
  have := uniquePLoop_eq a (a.cap - 1) m (a.read m) (by simp) (a.len - 1) 0 [x] x (by simp; omega) (by simp)
  have hov : over [x] (a.read m) = a.read m := by rw [hr]; rfl
  rw [hov, Sl.write_read] at this
  have hlen := runsP_length s x
  have hd : (a.read m).drop (0 + 1) = s := by rw [hr]; rfl
  rw [hd] at this
  simp only [List.length_singleton, List.singleton_append] at this
  unfold uniqueP
  rw [if_neg (by omega)]
  simp only [GoM.bind_def]
  rw [show ((0 : Int)) = ((0 : Nat) : Int) from rfl, hg]
  simp only [show ((1 : Int)) = ((1 : Nat) : Int) from rfl, hsl, this]
  cases (runsP x s).2
  · simp only [done, Bool.false_eq_true, if_false]
    rw [show (((0 : Nat) : Int)) = 0 from rfl, Sl.slice_zero _ _ _ (by simp; omega)]
    simp
  · simp [done]

theorem removeCopyP_eq [GoZero T] (grow : Nat → Nat → Nat) (a : Sl) (x : T) (m : Mem T) (ha : a.WF m) :
    ∃ r m', removeCopyP grow a x m = done (rejectP x (a.read m)).2 r m' ∧ Fresh m m' r ∧ r.read m' = (rejectP x (a.read m)).1 := by
  have hf := Fresh.make m 0 a.len (by omega)
  obtain ⟨r, m', e, h, hr⟩ := removeCopyPLoop_eq grow a x m ha (a.read m) [] _ _ rfl hf
  refine ⟨r, m', ?_, h, by simpa [Sl.read] using hr⟩
  simp only [List.length_nil, Sl.read_length] at e
  rw [← e]
  simp [removeCopyP, GoM.bind_def, Sl.make]

theorem uniqueCopyP_eq [GoZero T] (grow : Nat → Nat → Nat) (a : Sl) (m : Mem T) (ha : a.WF m) (x : T) (s : List T) (hr : a.read m = x :: s) :
    ∃ r m', uniqueCopyP grow a m = done (runsCopyP x s).2 r m' ∧ Fresh m m' r ∧ r.read m' = x :: (runsCopyP x s).1 := by
  have hl : a.len = s.length + 1 := by rw [← Sl.read_length m a, hr]; simp
  obtain ⟨r1, m1, e1, h1, hr1, _⟩ := (Fresh.nil m).append grow [x]
  obtain ⟨r2, m2, e2, h2, hr2⟩ := uniqueCopyPLoop_eq grow a m ha s [x] [] x r1 m1 (by simp [hr]) h1 (by simpa [Sl.read, Sl.empty] using hr1)
  refine ⟨r2, m2, ?_, h2, by simpa using hr2⟩
  unfold uniqueCopyP
  rw [if_neg (by omega), hl]
  simp only [uniqueCopyPLoop, GoM.bind_def]
  have hg := Sl.get_ok a m 0 (by omega)
  simp only [hr, List.getElem_cons_zero] at hg
  rw [hg]
  simp only
  rw [if_neg (show ¬ Sl.empty.len > 0 by simp [Sl.empty])]
  simp only [GoM.bind_def, e1]
  simpa using e2

/-! ## When no comparison panics -/

section Total
variable [GoEq T] (h : ∀ x y : T, GoEqP.eq x y = some (GoEq.eq x y))
include h

theorem eqM_total (x y : T) (m : Mem T) : eqM x y m = .ok (GoEq.eq x y) m := eqM_some (h x y) m

theorem replaceP_total (a : Sl) (old new : T) : replaceP a old new = replace a old new := by
  have : ∀ n i m, replacePLoop a old new n i m = replaceLoop a old new n i m := by
    intro n
    induction n with
    | zero => intro i m; rfl
    | succ n ih =>
      intro i m
      simp only [replacePLoop, replaceLoop, GoM.bind_def]
      cases a.get (i : Int) m with
      | ok v m1 =>
        simp only [eqM_total h]
        split
        · simp only [GoM.bind_def]; cases a.put (i : Int) new m1 <;> simp [ih]
        · exact ih _ _
      | panic _ => rfl
      | diverge => rfl
  exact funext (this a.len 0)

theorem removeP_total (a : Sl) (x : T) : removeP a x = remove a x := by
  have : ∀ n k j m, removePLoop a x n k j m = removeLoop a x n k j m := by
    intro n
    induction n with
    | zero => intro k j m; rfl
    | succ n ih =>
      intro k j m
      simp only [removePLoop, removeLoop, GoM.bind_def]
      cases a.get (k : Int) m with
      | ok v m1 =>
        simp only [eqM_total h]
        split
        · simp only [GoM.bind_def]; cases a.put (j : Int) v m1 <;> simp [ih]
        · exact ih _ _ _
      | panic _ => rfl
      | diverge => rfl
  funext m
  simp only [removeP, remove, GoM.bind_def, this]

theorem uniqueP_total (a : Sl) : uniqueP (T := T) a = unique a := by
  have : ∀ b n k i p (m : Mem T), uniquePLoop a b n k i p m = uniqueLoop a b n k i p m := by
    intro b n
    induction n with
    | zero => intro k i p m; rfl
    | succ n ih =>
      intro k i p m
      simp only [uniquePLoop, uniqueLoop, GoM.bind_def]
      cases b.get (k : Int) m with
      | ok v m1 =>
        simp only [eqM_total h]
        split
        · simp only [GoM.bind_def]; cases a.put (i : Int) v m1 <;> simp [ih]
        · exact ih _ _ _ _
      | panic _ => rfl
      | diverge => rfl
  funext m
  simp only [uniqueP, unique]
  split
  · rfl
  · simp only [GoM.bind_def, this]

theorem removeCopyP_total [GoZero T] (grow : Nat → Nat → Nat) (a : Sl) (x : T) : removeCopyP grow a x = removeCopy grow a x := by
  have : ∀ n k r m, removeCopyPLoop grow a x n k r m = removeCopyLoop grow a x n k r m := by
    intro n
    induction n with
    | zero => intro k j m; rfl
    | succ n ih =>
      intro k r m
      simp only [removeCopyPLoop, removeCopyLoop, GoM.bind_def]
      cases a.get (k : Int) m with
      | ok v m1 =>
        simp only [eqM_total h]
        split
        · simp only [GoM.bind_def]; cases r.append grow [v] m1 <;> simp [ih]
        · exact ih _ _ _
      | panic _ => rfl
      | diverge => rfl
  funext m
  simp only [removeCopyP, removeCopy, GoM.bind_def, this]

theorem uniqueCopyP_total [GoZero T] (grow : Nat → Nat → Nat) (a : Sl) : uniqueCopyP (T := T) grow a = uniqueCopy grow a := by
  have : ∀ n k r (m : Mem T), uniqueCopyPLoop grow a n k r m = uniqueCopyLoop grow a n k r m := by
    intro n
    induction n with
    | zero => intro k j m; rfl
    | succ n ih =>
      intro k r m
      simp only [uniqueCopyPLoop, uniqueCopyLoop, GoM.bind_def]
      cases a.get (k : Int) m with
      | ok v m1 =>
        simp only
        split
        · simp only [GoM.bind_def]
          cases r.get ((r.len : Int) - 1) m1 with
          | ok l m2 =>
            simp only [eqM_total h]
            split
            · exact ih _ _ _
            · simp only [GoM.bind_def]; cases r.append grow [v] m2 <;> simp [ih]
          | panic _ => rfl
          | diverge => rfl
        · simp only [GoM.bind_def]; cases r.append grow [v] m1 <;> simp [ih]
      | panic _ => rfl
      | diverge => rfl
  funext m
  simp only [uniqueCopyP, uniqueCopy]
  split
  · rfl
  · exact this _ _ _ _

theorem findP_total (a : Sl) (x : T) (m : Mem T) : findP a x m = .ok (find (a.read m) x) m ∧ indexP a x m = .ok (index (a.read m) x) m := by
  have : ∀ suf pre, a.read m = pre ++ suf → findPLoop a x suf.length pre.length m = .ok (findLoop x suf pre.length) m
      ∧ indexPLoop a x suf.length pre.length m = .ok (indexLoop x suf pre.length) m := by
    intro suf
    induction suf with
    | nil => intro pre _; exact ⟨rfl, rfl⟩
    | cons v suf ih =>
      intro pre hr
      have hl : a.len = pre.length + (suf.length + 1) := by rw [← Sl.read_length m a, hr]; simp
      have hg := Sl.get_ok a m pre.length (by omega)
      simp only [hr, List.getElem_append_right (Nat.le_refl _), Nat.sub_self, List.getElem_cons_zero] at hg
      have := ih (pre ++ [v]) (by simp [hr])
      simp only [List.length_append, List.length_singleton] at this
      simp only [List.length_cons, findPLoop, indexPLoop, findLoop, indexLoop, GoM.bind_def, hg, eqM_total h]
      split
      · exact ⟨rfl, rfl⟩
      · exact this
  have := this (a.read m) [] rfl
  simpa [findP, indexP, find, index] using this

theorem countP_total (a : Sl) (x : T) (m : Mem T) : countP a x m = .ok (count (a.read m) x) m := by
  have : ∀ suf pre c, a.read m = pre ++ suf → countPLoop a x suf.length pre.length c m = .ok (countLoop x suf c) m := by
    intro suf
    induction suf with
    | nil => intro pre c _; rfl
    | cons v suf ih =>
      intro pre c hr
      have hl : a.len = pre.length + (suf.length + 1) := by rw [← Sl.read_length m a, hr]; simp
      have hg := Sl.get_ok a m pre.length (by omega)
      simp only [hr, List.getElem_append_right (Nat.le_refl _), Nat.sub_self, List.getElem_cons_zero] at hg
      have := fun c => ih (pre ++ [v]) c (by simp [hr])
      simp only [List.length_append, List.length_singleton] at this
      simp only [List.length_cons, countPLoop, countLoop, GoM.bind_def, hg, eqM_total h]
      split <;> exact this _
  have := this (a.read m) [] 0 rfl
  simpa [countP, count] using this

/-- `Equal` of the other model, which works on lists. -/
theorem equalP_total (a b : Sl) (m : Mem T) : ∃ r, equal (a.read m) (b.read m) = .ret r ∧ equalP a b m = .ok r m := by
  unfold equal equalP
  simp only [Sl.read_length]
  split
  · exact ⟨false, rfl, rfl⟩
  · rename_i hab
    have hab : a.len = b.len := by omega
    have : ∀ n i, i + n = a.len → ∃ r, equalLoop (a.read m) (b.read m) n i = .ret r ∧ equalPLoop a b n i m = .ok r m := by
      intro n
      induction n with
      | zero => intro i _; exact ⟨true, rfl, rfl⟩
      | succ n ih =>
        intro i hi
        have e1 := idx_of_lt (a := a.read m) (i := i) (by simp; omega)
        have e2 := idx_of_lt (a := b.read m) (i := i) (by simp; omega)
        simp only [equalLoop, equalPLoop, GoM.bind_def, Sl.get_ok a m i (by omega), Sl.get_ok b m i (by omega), eqM_total h, e1, e2, Outcome.ret_bind]
        cases GoEq.eq ((a.read m)[i]'(by simp; omega)) ((b.read m)[i]'(by simp; omega))
        · exact ⟨false, rfl, rfl⟩
        · simpa using ih (i + 1) (by omega)
    exact this a.len 0 (by omega)

end Total

end Stl4go
