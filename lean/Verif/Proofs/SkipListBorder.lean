import Verif.Proofs.SkipListAny
import Verif.Spec.SkipListBorder
/-! # Lemmas for C175 -/
namespace Stl4go
variable {K V : Type} {impl : SLImpl K} {sl : SL K V} {ids : List Nat} {m : List (K × V)} {key : K} {iG iR iS : List Nat} {G R S : List (K × V)} {q : Nat} {e : K × V}

theorem SLImpl.dec_go (impl : SLImpl K) (key k : K) : impl.dec key k = .go ↔ impl.below k key = true := by
  cases impl with
  | ordered o =>
    simp only [SLImpl.dec, decO, SLImpl.below]
    by_cases h1 : GoEq.eq k key = true <;> by_cases h2 : GoOrd.lt key k = true <;> simp [h1, h2]
  | func c =>
    simp only [SLImpl.dec, decF, SLImpl.below]
    by_cases h1 : c k key = 0
    · simp [h1]
    · by_cases h2 : c k key > 0
      · have : ¬ c k key < 0 := by omega
        simp [h1, h2, this]
      · have : c k key < 0 := by omega
        simp [h1, h2, this]

theorem SLImpl.dec_stop (impl : SLImpl K) (key k : K) : impl.dec key k = .stop ↔ impl.above k key = true := by
  cases impl with
  | ordered o =>
    simp only [SLImpl.dec, decO, SLImpl.above]
    by_cases h1 : GoEq.eq k key = true <;> by_cases h2 : GoOrd.lt key k = true <;> simp [h1, h2]
  | func c =>
    simp only [SLImpl.dec, decF, SLImpl.above]
    by_cases h1 : c k key = 0
    · simp [h1]
    · by_cases h2 : c k key > 0 <;> simp [h1, h2]

theorem SL.BuiltEach.loose {h : List (SLImpl K × Nat × SMOp K V)} (hb : SL.BuiltEach h sl) : ∃ ids m, SLLoose sl ids m := by
  have key : ∀ (h : List (SLImpl K × Nat × SMOp K V)) {s s' : SL K V} {ids m obs}, SLLoose s ids m → SL.runEach s h = .ret (s', obs) → ∃ ids m, SLLoose s' ids m := by
    intro h
    induction h with
    | nil => intro s s' ids m obs hi e; simp only [SL.runEach, Outcome.ret.injEq, Prod.mk.injEq] at e; rw [← e.1]; exact ⟨ids, m, hi⟩
    | cons o h ih =>
      intro s s' ids m obs hi e
      obtain ⟨impl, rnd, op⟩ := o
      obtain ⟨s1, i1, m1, ob, a1, a2, _⟩ := hi.execA impl rnd op
      simp only [SL.runEach, a1, Outcome.ret_bind] at e
      cases hr : SL.runEach s1 h with
      | ret r =>
        rw [hr] at e
        simp only [Outcome.ret_bind, Outcome.pure_eq, Outcome.ret.injEq, Prod.mk.injEq] at e
        rw [← e.1]
        exact ih a2 hr
      | panic => rw [hr] at e; exact nomatch e
      | diverge => rw [hr] at e; exact nomatch e
  obtain ⟨obs, e⟩ := hb
  exact key h (SLInv.new (V := V) _) e

theorem SLLoose.holds_eq (h : SLLoose sl ids m) {l : List (K × V)} (hl : sl.Holds l) : m = l := by
  have := h.holds
  rw [SL.Holds, hl] at this
  injection this with this
  exact this.symm

/-- The last entry that a search passed, and the one it stopped at. -/
theorem Miss.last {dec : K → Dec} (p : Miss dec sl ids m iG iR G R) {A : List (K × V)} {e : K × V} (hG : G = A ++ [e]) : dec e.1 = .go := by
  have hk := p.kG
  rw [hG, List.map_append] at hk
  obtain ⟨iA, iE, e1, e2, e3⟩ := List.map_eq_append_iff.1 hk
  obtain ⟨x, rfl, hx⟩ : ∃ x, iE = [x] ∧ sl.kv x = some e := by
    cases iE with
    | nil => exact nomatch e3
    | cons x iE =>
      cases iE with
      | nil => simp only [List.map_cons, List.map_nil, List.cons.injEq, and_true] at e3; exact ⟨x, rfl, e3⟩
      | cons y iE => simp at e3
  have := p.path.go iA x [] e1 (by simp)
  rwa [SL.decAt_kv hx] at this

theorem Miss.first {dec : K → Dec} (h : SLLoose sl ids m) (p : Miss dec sl ids m iG iR G R) {B : List (K × V)} {e : K × V} (hR : R = e :: B) : dec e.1 = .stop := by
  have hk := p.kR
  rw [hR] at hk
  cases iR with
  | nil => exact nomatch hk
  | cons x iR =>
    simp only [List.map_cons, List.cons.injEq] at hk
    have hs : 0 < sl.lvl x := h.lvl_pos x (by rw [p.ids_eq]; simp)
    have := p.path.stop 0 x (firstAt_cons_pos hs)
    rwa [SL.decAt_kv hk.1] at this

theorem SLLoose.fromLower_miss (h : SLLoose sl ids m) (p : Miss (impl.dec key) sl ids m iG iR G R) : sl.fromLower impl key = .ret R := by
  have := h.observe p.ids_eq p.kR
  simp [SL.fromLower, SL.lowerBoundIter, h.lowerBound_missA p, this]

theorem SLLoose.fromUpper_miss (h : SLLoose sl ids m) (p : Miss (impl.dec key) sl ids m iG iR G R) : sl.fromUpper impl key = .ret R := by
  have := h.observe p.ids_eq p.kR
  simp [SL.fromUpper, SL.upperBoundIter, h.upperBound_missA p, this]

theorem SLLoose.fromLower_hit (h : SLLoose sl ids m) (p : Hit (impl.dec key) sl ids m iG q iS G e S) : sl.fromLower impl key = .ret (e :: S) := by
  have := h.observe (A := iG) (B := q :: iS) (mB := e :: S) p.ids_eq (by simp [p.kq, p.kS])
  simp at this
  simp [SL.fromLower, SL.lowerBoundIter, h.lowerBound_hitA p, this]

theorem SLLoose.fromUpper_hit (h : SLLoose sl ids m) (p : Hit (impl.dec key) sl ids m iG q iS G e S) : sl.fromUpper impl key = .ret S := by
  have := h.observe (A := iG ++ [q]) (B := iS) (mB := S) (by simp [p.ids_eq]) p.kS
  simp [SL.fromUpper, SL.upperBoundIter, h.upperBound_hitA p, this]

/-- If no node on the way is the one that is searched for, `Remove` searches like `Find`. -/
theorem Miss.toP (h : SLLoose sl ids m) (p : Miss (impl.dec key) sl ids m iG iR G R) : Miss (impl.decP key) sl ids m iG iR G R := by
  have hd : ∀ x, x ∈ iG ++ iR → sl.decAt (impl.decP key) x = if sl.decAt (impl.dec key) x = .go then .go else .stop := by
    intro x hx
    obtain ⟨e, _, hk⟩ := mem_kv h.kvs (by rw [p.ids_eq]; exact hx)
    rw [SL.decAt_kv hk, SL.decAt_kv hk, SLImpl.decP_eq_any]
  refine ⟨p.ids_eq, p.m_eq, p.kG, p.kR, fun A q B e hB => ?_, fun x c hc => ?_⟩
  · rw [hd q (by rw [e]; simp), p.path.go A q B e hB]; rfl
  · obtain ⟨P, Q, hR, _⟩ := firstAt_some hc
    rw [hd c (by rw [hR]; simp), p.path.stop x c hc]; rfl

/-! ## Lists that are in order for one key -/

/-- Only one place has something to pass before it and something to stop at behind it. -/
theorem border_unique {α : Type} {D : α → Dec} (E S R0 : List α) (hE : ∀ x ∈ E, D x = .hit) (hS : ∀ x ∈ S, D x = .stop) : ∀ (G G0 : List α),
    G ++ (E ++ S) = G0 ++ R0 → (∀ x ∈ G, D x = .go) → (∀ A e, G0 = A ++ [e] → D e = .go) → (∀ e B, R0 = e :: B → D e = .stop) → E = [] ∧ G0 = G ∧ R0 = S := by
  intro G
  induction G with
  | nil =>
    intro G0 e _ h1 h2
    rcases List.eq_nil_or_concat G0 with rfl | ⟨A, g, rfl⟩
    · cases E with
      | nil => exact ⟨rfl, rfl, e.symm⟩
      | cons x E =>
        have := h2 x (E ++ S) e.symm
        rw [hE x (by simp)] at this
        exact nomatch this
    · have hg := h1 A g (by simp)
      have : g ∈ E ++ S := by
        have : g ∈ [] ++ (E ++ S) := by rw [e]; simp
        exact this
      rcases List.mem_append.1 this with h | h
      · rw [hE g h] at hg; exact nomatch hg
      · rw [hS g h] at hg; exact nomatch hg
  | cons g G ih =>
    intro G0 e hG h1 h2
    cases G0 with
    | nil =>
      have := h2 g _ e.symm
      rw [hG g (by simp)] at this
      exact nomatch this
    | cons g0 G0 =>
      rw [List.cons_append, List.cons_append, List.cons.injEq] at e
      obtain ⟨rfl, e⟩ := e
      obtain ⟨a1, a2, a3⟩ := ih G0 e (fun x hx => hG x (List.mem_cons_of_mem _ hx)) (fun A e hA => h1 (g :: A) e (by rw [hA]; rfl)) h2
      exact ⟨a1, by rw [a2], a3⟩

/-- What is hit is among what may be hit. -/
theorem hit_among {α : Type} {D : α → Dec} (E S : List α) (hS : ∀ x ∈ S, D x = .stop) {x : α} {S0 : List α} (hx : D x = .hit) :
    ∀ (G G0 : List α), G ++ (E ++ S) = G0 ++ x :: S0 → (∀ x ∈ G, D x = .go) → ∃ E1 E2, E = E1 ++ x :: E2 ∧ G0 = G ++ E1 ∧ S0 = E2 ++ S := by
  intro G
  induction G with
  | nil =>
    intro G0 e _
    rw [List.nil_append] at e
    induction E generalizing G0 with
    | nil =>
      have : x ∈ S := by
        have : x ∈ [] ++ S := by rw [e]; simp
        exact this
      rw [hS x this] at hx; exact nomatch hx
    | cons y E ih =>
      cases G0 with
      | nil =>
        rw [List.cons_append, List.nil_append, List.cons.injEq] at e
        exact ⟨[], E, by rw [e.1]; rfl, rfl, e.2.symm⟩
      | cons g G0 =>
        rw [List.cons_append, List.cons_append, List.cons.injEq] at e
        obtain ⟨E1, E2, a1, a2, a3⟩ := ih G0 e.2
        rw [List.nil_append] at a2
        exact ⟨y :: E1, E2, by rw [a1]; rfl, by rw [a2, e.1]; rfl, a3⟩
  | cons g G ih =>
    intro G0 e hG
    cases G0 with
    | nil =>
      rw [List.cons_append, List.nil_append, List.cons.injEq] at e
      rw [← e.1, hG g (by simp)] at hx
      exact nomatch hx
    | cons g0 G0 =>
      rw [List.cons_append, List.cons_append, List.cons.injEq] at e
      obtain ⟨E1, E2, a1, a2, a3⟩ := ih G0 e.2 (fun x hx => hG x (List.mem_cons_of_mem _ hx))
      exact ⟨E1, E2, a1, by rw [a2, e.1]; rfl, a3⟩

end Stl4go
