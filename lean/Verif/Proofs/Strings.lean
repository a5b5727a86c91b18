import Verif.Spec.Strings
import Verif.Proofs.BuiltinSet
/-! # Lemmas for the `String` methods -/
namespace Stl4go
variable {K : Type}

theorem showSlice_eq (ws : List (List Char)) : showSlice ws = '[' :: spaced ws ++ [']'] := by
  have key : ∀ (ws : List (List Char)) (w : List Char), w ++ ws.flatMap (fun w => ' ' :: w) = spaced (w :: ws) := by
    intro ws
    induction ws with
    | nil => intro w; simp [spaced]
    | cons v ws ih => intro w; rw [spaced, ← ih v]; simp
  cases ws with
  | nil => rfl
  | cons w ws => rw [showSlice, ← key ws w]; simp

theorem sprintf_text (c : Char) (rest : List Char) (args : List (List Char)) (h : c ≠ '%') :
    sprintf (c :: rest) args = (sprintf rest args).map (c :: ·) := by
  cases rest with
  | nil => simp [sprintf, h]
  | cons d rest => simp [sprintf, h]

/-- The text of a spaced list tells its words. -/
theorem spaced_inj : ∀ (l l' : List (List Char)), (∀ w ∈ l, Word w) → (∀ w ∈ l', Word w) → spaced l = spaced l' → l = l' := by
  have first : ∀ (w v r r' : List Char), ' ' ∉ w → ' ' ∉ v → (r = [] ∨ r.head? = some ' ') → (r' = [] ∨ r'.head? = some ' ') →
      w ++ r = v ++ r' → w = v ∧ r = r' := by
    intro w
    induction w with
    | nil =>
      intro v r r' _ hv hr _ e
      cases v with
      | nil => exact ⟨rfl, by simpa using e⟩
      | cons c v =>
        simp only [List.nil_append] at e
        subst e
        rcases hr with hr | hr
        · simp at hr
        · simp at hr
          subst hr
          simp at hv
    | cons c w ih =>
      intro v r r' hw hv hr hr' e
      cases v with
      | nil =>
        simp only [List.nil_append] at e
        subst e
        rcases hr' with hr' | hr'
        · simp at hr'
        · simp at hr'
          subst hr'
          simp at hw
      | cons d v =>
        simp only [List.cons_append, List.cons.injEq] at e
        obtain ⟨rfl, e⟩ := e
        obtain ⟨rfl, rfl⟩ := ih v r r' (fun h => hw (by simp [h])) (fun h => hv (by simp [h])) hr hr' e
        exact ⟨rfl, rfl⟩
  have cut : ∀ (w : List Char) (l : List (List Char)), ∃ r, spaced (w :: l) = w ++ r ∧ (r = [] ∨ r.head? = some ' ') ∧
      ((l = [] ∧ r = []) ∨ ∃ v m, l = v :: m ∧ r = ' ' :: spaced (v :: m)) := by
    intro w l
    cases l with
    | nil => exact ⟨[], by simp [spaced], .inl rfl, .inl ⟨rfl, rfl⟩⟩
    | cons v m => exact ⟨' ' :: spaced (v :: m), by simp [spaced], .inr rfl, .inr ⟨v, m, rfl, rfl⟩⟩
  intro l
  induction l with
  | nil =>
    intro l' _ h' e
    cases l' with
    | nil => rfl
    | cons v l' =>
      obtain ⟨r, e', _⟩ := cut v l'
      rw [e'] at e
      have hv := (h' v (by simp)).1
      simp [spaced] at e
      exact absurd e.1 hv
  | cons w l ih =>
    intro l' h h' e
    cases l' with
    | nil =>
      obtain ⟨r, e', _⟩ := cut w l
      rw [e'] at e
      simp [spaced] at e
      exact absurd e.1 (h w (by simp)).1
    | cons v l' =>
      obtain ⟨r, e1, hr, c1⟩ := cut w l
      obtain ⟨r', e2, hr', c2⟩ := cut v l'
      rw [e1, e2] at e
      obtain ⟨rfl, rfl⟩ := first w v r r' (h w (by simp)).2 (h' v (by simp)).2 hr hr' e
      congr 1
      rcases c1 with ⟨rfl, rfl⟩ | ⟨v1, m1, rfl, er⟩
      · rcases c2 with ⟨rfl, _⟩ | ⟨v2, m2, rfl, er'⟩
        · rfl
        · cases er'
      · rcases c2 with ⟨rfl, rfl⟩ | ⟨v2, m2, rfl, er'⟩
        · cases er
        · rw [er] at er'
          refine ih _ (fun w hw => h w (by simp [hw])) (fun w hw => h' w (by simp [hw])) ?_
          simpa using er'

theorem bsString_eq (rt : MapRt K) (name : List Char) (shows : K → List Char) (s : MRef) (w : MWorld K) :
    bsString rt (pointerTo name) shows s w =
      .ok (some ("BuiltinSet[".toList ++ name ++ "][".toList ++ spaced ((rt.order w.loops (w.keysOf s)).map shows) ++ "]".toList))
        { w with loops := w.loops + 1 } := by
  simp only [bsString, GoM.bind_def, nameOfTypeM, nameOfType, pointerTo, bsKeys, mapRange, keysLoop_eq, GoM.pure_apply, showSlice_eq]
  simp [sprintf]

end Stl4go
