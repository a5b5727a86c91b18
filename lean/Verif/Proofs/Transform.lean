import Verif.Model.Transform
import Verif.Proofs.Slice
import Verif.Spec.Transform
/-! # Lemmas about the functions of `transform.go` -/
namespace Stl4go
variable {T R σ : Type}

theorem onlyIn_write (m : Mem T) (a : Sl) (xs : List T) (h : xs.length ≤ a.len) : OnlyIn m (m.write a.off xs) a :=
  ⟨rfl, fun _ hk => Mem.write_out _ _ _ _ (by omega)⟩

/-! ## In place -/

theorem Sl.get_mid (a : Sl) (m : Mem T) (pre suf : List T) (v : T) (h : a.len = (pre ++ v :: suf).length) :
    a.get (pre.length : Int) (m.write a.off (pre ++ v :: suf)) = .ok v (m.write a.off (pre ++ v :: suf)) := by
  rw [Sl.get_write _ _ _ h.symm _ (by simp)]
  simp

theorem Sl.put_mid (a : Sl) (m : Mem T) (pre suf : List T) (v w : T) (h : a.len = (pre ++ v :: suf).length) :
    a.put (pre.length : Int) w (m.write a.off (pre ++ v :: suf)) = .ok () (m.write a.off (pre ++ w :: suf)) := by
  rw [Sl.put_write _ _ _ h.symm _ _ (by simp)]
  simp

theorem transformLoop_eq (a : Sl) (op : σ → T → σ × T) (m : Mem T) (suf : List T) : ∀ (pre : List T) (t : σ),
    a.len = (pre ++ suf).length →
    transformLoop a op suf.length pre.length t (m.write a.off (pre ++ suf))
      = .ok (mapS op t suf).1 (m.write a.off (pre ++ (mapS op t suf).2)) := by
  induction suf with
  | nil => intro pre t h; rfl
  | cons v suf ih =>
    intro pre t h
    simp only [List.length_cons, transformLoop, GoM.bind_def]
    rw [Sl.get_mid a m pre suf v h]
    simp only [Sl.put_mid a m pre suf v _ h]
    have := ih (pre ++ [(op t v).2]) (op t v).1 (by simp at h ⊢; omega)
    simp at this
    simp [this, mapS]

theorem transform_eq (a : Sl) (op : σ → T → σ × T) (m : Mem T) (t : σ) :
    transform a op t m = .ok (mapS op t (a.read m)).1 (m.write a.off (mapS op t (a.read m)).2) := by
  have := transformLoop_eq a op m (a.read m) [] t (by simp)
  simpa [Sl.write_read, transform] using this

theorem replaceIfLoop_eq (a : Sl) (pred : σ → T → σ × Bool) (new : T) (m : Mem T) (suf : List T) : ∀ (pre : List T) (t : σ),
    a.len = (pre ++ suf).length →
    replaceIfLoop a pred new suf.length pre.length t (m.write a.off (pre ++ suf))
      = .ok (mapS (fun t v => ((pred t v).1, if (pred t v).2 then new else v)) t suf).1
          (m.write a.off (pre ++ (mapS (fun t v => ((pred t v).1, if (pred t v).2 then new else v)) t suf).2)) := by
  induction suf with
  | nil => intro pre t h; rfl
  | cons v suf ih =>
    intro pre t h
    simp only [List.length_cons, replaceIfLoop, GoM.bind_def]
    rw [Sl.get_mid a m pre suf v h]
    by_cases hp : (pred t v).2 = true
    · simp only [if_pos hp, GoM.bind_def, Sl.put_mid a m pre suf v _ h]
      have := ih (pre ++ [new]) (pred t v).1 (by simp at h ⊢; omega)
      simp at this
      simp [this, mapS, hp]
    · simp only [if_neg hp]
      have := ih (pre ++ [v]) (pred t v).1 (by simp at h ⊢; omega)
      simp at this
      simp [this, mapS, hp]

theorem replaceIf_eq (a : Sl) (pred : σ → T → σ × Bool) (new : T) (m : Mem T) (t : σ) :
    replaceIf a pred new t m = .ok (mapS (fun t v => ((pred t v).1, if (pred t v).2 then new else v)) t (a.read m)).1
      (m.write a.off (mapS (fun t v => ((pred t v).1, if (pred t v).2 then new else v)) t (a.read m)).2) := by
  have := replaceIfLoop_eq a pred new m (a.read m) [] t (by simp)
  simpa [Sl.write_read, replaceIf] using this

theorem replaceLoop_eq [GoEq T] (a : Sl) (old new : T) (m : Mem T) (suf : List T) : ∀ (pre : List T),
    a.len = (pre ++ suf).length →
    replaceLoop a old new suf.length pre.length (m.write a.off (pre ++ suf))
      = .ok () (m.write a.off (pre ++ suf.map (fun v => if GoEq.eq v old then new else v))) := by
  induction suf with
  | nil => intro pre h; rfl
  | cons v suf ih =>
    intro pre h
    simp only [List.length_cons, replaceLoop, GoM.bind_def]
    rw [Sl.get_mid a m pre suf v h]
    by_cases hp : GoEq.eq v old = true
    · simp only [if_pos hp, GoM.bind_def, Sl.put_mid a m pre suf v _ h]
      have := ih (pre ++ [new]) (by simp at h ⊢; omega)
      simp at this
      simp [this, hp]
    · simp only [if_neg hp]
      have := ih (pre ++ [v]) (by simp at h ⊢; omega)
      simp at this
      simp [this, hp]

theorem replace_eq [GoEq T] (a : Sl) (old new : T) (m : Mem T) :
    replace a old new m = .ok () (m.write a.off ((a.read m).map (fun v => if GoEq.eq v old then new else v))) := by
  have := replaceLoop_eq a old new m (a.read m) [] (by simp)
  simpa [Sl.write_read, replace] using this

/-- Compaction step: the element just read goes to the end of the kept part. -/
theorem compact_put (a : Sl) (m : Mem T) (kept junk suf : List T) (v : T) (h : a.len = (kept ++ junk ++ v :: suf).length) :
    ∃ junk', junk'.length = junk.length ∧
      a.put (kept.length : Int) v (m.write a.off (kept ++ junk ++ v :: suf)) = .ok () (m.write a.off ((kept ++ [v]) ++ junk' ++ suf)) := by
  cases junk with
  | nil =>
    refine ⟨[], rfl, ?_⟩
    have := Sl.put_mid a m kept suf v v (by simpa using h)
    simpa using this
  | cons q junk =>
    refine ⟨junk ++ [v], by simp, ?_⟩
    have := Sl.put_mid a m kept (junk ++ v :: suf) q v (by simp at h ⊢; omega)
    simpa using this

theorem compact_get (a : Sl) (m : Mem T) (kept junk suf : List T) (v : T) (h : a.len = (kept ++ junk ++ v :: suf).length) :
    a.get ((kept.length + junk.length : Nat) : Int) (m.write a.off (kept ++ junk ++ v :: suf)) = .ok v (m.write a.off (kept ++ junk ++ v :: suf)) := by
  have := Sl.get_mid a m (kept ++ junk) suf v h
  simpa using this

theorem removeIfLoop_eq (a : Sl) (cond : σ → T → σ × Bool) (m : Mem T) (suf : List T) : ∀ (kept junk : List T) (t : σ),
    a.len = (kept ++ junk ++ suf).length →
    ∃ junk', a.len = (kept ++ (rejectS cond t suf).2 ++ junk').length ∧
    removeIfLoop a cond suf.length (kept.length + junk.length) kept.length t (m.write a.off (kept ++ junk ++ suf))
      = .ok ((rejectS cond t suf).1, (kept ++ (rejectS cond t suf).2).length) (m.write a.off (kept ++ (rejectS cond t suf).2 ++ junk')) := by
  induction suf with
  | nil => intro kept junk t h; exact ⟨junk, by simpa [rejectS] using h, by simp [removeIfLoop, rejectS, GoM.pure_apply]⟩
  | cons v suf ih =>
    intro kept junk t h
    simp only [List.length_cons, removeIfLoop, GoM.bind_def]
    rw [compact_get a m kept junk suf v h]
    by_cases hp : (cond t v).2 = false
    · simp only [if_pos hp, GoM.bind_def]
      obtain ⟨j1, hj1, e1⟩ := compact_put a m kept junk suf v h
      obtain ⟨j2, hj2, e2⟩ := ih (kept ++ [v]) j1 (cond t v).1 (by simp at h ⊢; omega)
      refine ⟨j2, ?_, ?_⟩
      · simp [rejectS, hp] at hj2 ⊢; omega
      · rw [e1]
        simp only
        rw [show kept.length + junk.length + 1 = (kept ++ [v]).length + j1.length by simp; omega,
          show kept.length + 1 = (kept ++ [v]).length by simp, e2]
        simp [rejectS, hp]
    · have hp' : (cond t v).2 = true := by simpa using hp
      simp only [if_neg hp]
      obtain ⟨j2, hj2, e2⟩ := ih kept (junk ++ [v]) (cond t v).1 (by simp at h ⊢; omega)
      refine ⟨j2, by simpa [rejectS, hp'] using hj2, ?_⟩
      rw [show kept.length + junk.length + 1 = kept.length + (junk ++ [v]).length by simp; omega]
      rw [show kept ++ junk ++ v :: suf = kept ++ (junk ++ [v]) ++ suf by simp, e2]
      simp [rejectS, hp']

theorem removeIf_eq (a : Sl) (cond : σ → T → σ × Bool) (m : Mem T) (t : σ) (h : a.WF m) :
    ∃ junk, a.len = ((rejectS cond t (a.read m)).2 ++ junk).length ∧
      removeIf a cond t m = .ok ((rejectS cond t (a.read m)).1, { a with len := (rejectS cond t (a.read m)).2.length })
        (m.write a.off ((rejectS cond t (a.read m)).2 ++ junk)) := by
  obtain ⟨junk, hl, e⟩ := removeIfLoop_eq a cond m (a.read m) [] [] t (by simp)
  refine ⟨junk, by simpa using hl, ?_⟩
  simp [Sl.write_read] at e hl
  unfold removeIf
  simp only [GoM.bind_def, e]
  have := Sl.slice_ok a (m.write a.off ((rejectS cond t (a.read m)).2 ++ junk)) 0 (rejectS cond t (a.read m)).2.length (by omega)
    (by have := h.1; omega)
  simp at this
  simp [this, GoM.pure_apply]

theorem removeLoop_eq_if [GoEq T] (a : Sl) (x : T) (n : Nat) : ∀ (k j : Nat) (m : Mem T),
    removeLoop a x n k j m = (do
      let r ← removeIfLoop a (fun (_ : Unit) v => ((), GoEq.eq v x)) n k j ()
      pure r.2 : GoM (Mem T) Nat) m := by
  induction n with
  | zero => intro k j m; rfl
  | succ n ih =>
    intro k j m
    simp only [removeLoop, removeIfLoop, GoM.bind_def]
    cases a.get k m with
    | panic s => rfl
    | diverge => rfl
    | ok v s =>
      simp only
      by_cases hp : GoEq.eq v x = false
      · simp only [if_pos hp, GoM.bind_def]
        cases a.put j v s with
        | panic s => rfl
        | diverge => rfl
        | ok u s => simp only [ih]; rfl
      · simp only [if_neg hp, ih]; rfl

theorem remove_eq [GoEq T] (a : Sl) (x : T) (m : Mem T) (h : a.WF m) :
    ∃ junk, a.len = ((rejectS (fun (_ : Unit) v => ((), GoEq.eq v x)) () (a.read m)).2 ++ junk).length ∧
      remove a x m = .ok { a with len := (rejectS (fun (_ : Unit) v => ((), GoEq.eq v x)) () (a.read m)).2.length }
        (m.write a.off ((rejectS (fun (_ : Unit) v => ((), GoEq.eq v x)) () (a.read m)).2 ++ junk)) := by
  obtain ⟨junk, hl, e⟩ := removeIf_eq a (fun (_ : Unit) v => ((), GoEq.eq v x)) m () h
  refine ⟨junk, hl, ?_⟩
  unfold remove
  unfold removeIf at e
  simp only [GoM.bind_def, removeLoop_eq_if] at e ⊢
  cases h1 : removeIfLoop a (fun (_ : Unit) v => ((), GoEq.eq v x)) a.len 0 0 () m with
  | panic s => simp [h1] at e
  | diverge => simp [h1] at e
  | ok r s =>
    simp only [h1, GoM.pure_apply] at e ⊢
    cases h2 : a.slice 0 r.2 s with
    | panic s => simp [h2] at e
    | diverge => simp [h2] at e
    | ok r s => simp only [h2] at e ⊢; simp at e ⊢; simp [e]

theorem rejectS_filter (p : T → Bool) (l : List T) :
    (rejectS (fun (_ : Unit) v => ((), p v)) () l).2 = l.filter (fun v => !p v) := by
  induction l with
  | nil => rfl
  | cons x l ih =>
    simp only [rejectS]
    by_cases hp : p x = true <;> simp [hp, ih]

theorem mapS_map (f : T → R) (l : List T) : (mapS (fun (_ : Unit) v => ((), f v)) () l).2 = l.map f := by
  induction l with
  | nil => rfl
  | cons x l ih => simp [mapS, ih]

theorem mapS_length (f : σ → T → σ × R) (l : List T) : ∀ t, (mapS f t l).2.length = l.length := by
  induction l with
  | nil => intro t; rfl
  | cons x l ih => intro t; simp [mapS, ih]

/-! ## Unique -/

/-- The elements that differ from the last one kept. -/
def startsK [GoEq T] : T → List T → List T
  | _, [] => []
  | p, x :: s => if GoEq.eq x p then startsK p s else x :: startsK x s

theorem startsK_eq [GoEq T] (hE : PartialEq T) (s : List T) : ∀ (p q : T), (∀ x, GoEq.eq x p = GoEq.eq q x) → startsK p s = starts q s := by
  induction s with
  | nil => intros; rfl
  | cons x s ih =>
    intro p q hpq
    simp only [startsK, starts, hpq]
    by_cases h : GoEq.eq q x = true
    · simp only [if_pos h]
      apply ih
      intro y
      rw [hpq]
      rcases Bool.eq_false_or_eq_true (GoEq.eq q y) with h1 | h1 <;> rcases Bool.eq_false_or_eq_true (GoEq.eq x y) with h2 | h2
      · rw [h1, h2]
      · rw [hE.trans x q y (hE.symm _ _ h) h1] at h2; cases h2
      · rw [hE.trans q x y h h2] at h1; cases h1
      · rw [h1, h2]
    · rw [if_neg h, if_neg h]
      congr 1
      apply ih
      intro y
      rcases Bool.eq_false_or_eq_true (GoEq.eq y x) with h1 | h1 <;> rcases Bool.eq_false_or_eq_true (GoEq.eq x y) with h2 | h2
      · rw [h1, h2]
      · rw [hE.symm _ _ h1] at h2; cases h2
      · rw [hE.symm _ _ h2] at h1; cases h1
      · rw [h1, h2]

theorem startsK_self [GoEq T] (hE : PartialEq T) (p : T) (s : List T) : startsK p s = starts p s := by
  apply startsK_eq hE
  intro y
  rcases Bool.eq_false_or_eq_true (GoEq.eq y p) with h1 | h1 <;> rcases Bool.eq_false_or_eq_true (GoEq.eq p y) with h2 | h2
  · rw [h1, h2]
  · rw [hE.symm _ _ h1] at h2; cases h2
  · rw [hE.symm _ _ h2] at h1; cases h1
  · rw [h1, h2]

/-- Reading `a[1:][k]` is reading `a[k+1]`. -/
theorem Sl.get_tail (a : Sl) (m : Mem T) (k : Nat) (h : k + 1 < a.len) (c : Nat) :
    Sl.get { off := a.off + 1, len := a.len - 1, cap := c } (k : Int) m = a.get ((k + 1 : Nat) : Int) m := by
  unfold Sl.get
  simp only
  rw [if_pos (by omega), if_pos (by omega)]
  congr 2
  omega

theorem uniqueLoop_eq [GoEq T] (a : Sl) (c : Nat) (m : Mem T) (suf : List T) : ∀ (kept junk : List T) (prev : T),
    kept ≠ [] →
    a.len = (kept ++ junk ++ suf).length →
    ∃ junk', a.len = (kept ++ startsK prev suf ++ junk').length ∧
    uniqueLoop a { off := a.off + 1, len := a.len - 1, cap := c } suf.length (kept.length + junk.length - 1) kept.length prev
        (m.write a.off (kept ++ junk ++ suf))
      = .ok (kept ++ startsK prev suf).length (m.write a.off (kept ++ startsK prev suf ++ junk')) := by
  induction suf with
  | nil => intro kept junk p _ h; exact ⟨junk, by simpa [startsK] using h, by simp [uniqueLoop, startsK, GoM.pure_apply]⟩
  | cons v suf ih =>
    intro kept junk p hk h
    have hk' := List.length_pos_iff.mpr hk
    simp only [List.length_cons, uniqueLoop, GoM.bind_def]
    rw [Sl.get_tail _ _ _ (by simp at h; omega), show kept.length + junk.length - 1 + 1 = kept.length + junk.length by omega,
      compact_get a m kept junk suf v h]
    by_cases hp : GoEq.eq v p = false
    · simp only [if_pos hp, GoM.bind_def]
      obtain ⟨j1, hj1, e1⟩ := compact_put a m kept junk suf v h
      obtain ⟨j2, hj2, e2⟩ := ih (kept ++ [v]) j1 v (by simp) (by simp at h ⊢; omega)
      refine ⟨j2, ?_, ?_⟩
      · simp [startsK, hp] at hj2 ⊢; omega
      · rw [e1]
        simp only
        rw [show kept.length + junk.length = (kept ++ [v]).length + j1.length - 1 by simp; omega,
          show kept.length + 1 = (kept ++ [v]).length by simp, e2]
        simp [startsK, hp]
    · have hp' : GoEq.eq v p = true := by simpa using hp
      simp only [if_neg hp]
      obtain ⟨j2, hj2, e2⟩ := ih kept (junk ++ [v]) p hk (by simp at h ⊢; omega)
      refine ⟨j2, by simpa [startsK, hp'] using hj2, ?_⟩
      rw [show kept.length + junk.length = kept.length + (junk ++ [v]).length - 1 by simp]
      rw [show kept ++ junk ++ v :: suf = kept ++ (junk ++ [v]) ++ suf by simp, e2]
      simp [startsK, hp']

theorem unique_eq [GoEq T] (hE : PartialEq T) (a : Sl) (m : Mem T) (h : a.WF m) :
    ∃ junk, a.len = (collapse (a.read m) ++ junk).length ∧
      unique a m = .ok { a with len := (collapse (a.read m)).length } (m.write a.off (collapse (a.read m) ++ junk)) := by
  unfold unique
  by_cases h0 : a.len = 0
  · have hr : a.read m = [] := List.eq_nil_of_length_eq_zero (by simpa using h0)
    refine ⟨[], by simp [hr, collapse, h0], ?_⟩
    rw [if_pos h0]
    simp [hr, collapse, GoM.pure_apply, ← h0]
  · rw [if_neg h0]
    obtain ⟨x, s, hr⟩ := List.exists_cons_of_length_pos (l := a.read m) (by simp; omega)
    have hl : (x :: s).length = a.len := by rw [← hr]; simp
    have hg := Sl.get_ok a m 0 (by omega)
    have hsl := Sl.slice_ok a m 1 a.len (by omega) h.1
    simp only [hr, List.getElem_cons_zero] at hg
    obtain ⟨j, hj, e⟩ := uniqueLoop_eq a (a.cap - 1) m s [x] [] x (by simp) (by simpa using hl.symm)
    have e0 : m.write a.off (x :: s) = m := by rw [← hr]; exact Sl.write_read m a
    simp [e0] at e
    have hcol : collapse (a.read m) = x :: startsK x s := by rw [hr, startsK_self hE]; rfl
    have hs : s.length = a.len - 1 := by simp at hl; omega
    have hj' : a.len = (startsK x s).length + 1 + j.length := by simp at hj; omega
    refine ⟨j, by rw [hcol]; simp; omega, ?_⟩
    simp only [GoM.bind_def]
    simp only [Int.natCast_zero, Int.natCast_one] at hg hsl
    rw [hg]
    simp only [hsl]
    rw [hs] at e
    simp only [e]
    rw [Sl.slice_zero a _ _ (by have := h.1; omega)]
    simp [hcol]

end Stl4go
