import Verif.Proofs.SkipListBorder
import Verif.Spec.SkipListRefs
/-!
# C175: where the searches of a skip list end, whatever the order of its keys

The list was built by calls of which each may have used another comparison (`SL.BuiltEach`): one that obeys no law, or one that looks at something the client changes between calls.
`impl` is the comparison of the call in question. `l` is what iterating over the list yields.
-/
namespace Stl4go
variable {K V : Type}
variable {impl : SLImpl K} {h : List (SLImpl K × Nat × SMOp K V)} {sl : SL K V} {l : List (K × V)}

/-- C175, nothing found: then there is a border in the list, an entry that is too small directly before one that is too large, or one of the ends. `LowerBound` and `UpperBound` both
point behind the border, `Insert` adds its entry there, and `Remove` returns false. -/
theorem C175_missed (hb : SL.BuiltEach h sl) (hl : sl.Holds l) (k : K) (hf : sl.find impl k = .ret none) :
    ∃ G R, l = G ++ R ∧ LastIs (impl.below · k) G ∧ FirstIs (impl.above · k) R ∧
      sl.fromLower impl k = .ret R ∧ sl.fromUpper impl k = .ret R ∧
      (∀ rnd v, ∃ sl', sl.insert impl rnd k v = .ret sl' ∧ sl'.Holds (G ++ (k, v) :: R)) ∧
      ∃ sl', sl.remove impl k = .ret (sl', false) ∧ sl'.Holds l := by
  obtain ⟨ids, m, hi⟩ := hb.loose
  obtain rfl := hi.holds_eq hl
  rcases hi.search (impl.dec k) with ⟨iG, iR, G, R, p⟩ | ⟨iG, q, iS, G, e, S, p⟩
  · refine ⟨G, R, p.m_eq, fun A e hA => (SLImpl.dec_go _ _ _).1 (p.last hA), fun e B hB => (SLImpl.dec_stop _ _ _).1 (p.first hi hB),
      hi.fromLower_miss p, hi.fromUpper_miss p, fun rnd v => ?_, ?_⟩
    · obtain ⟨sl', a1, a2, _⟩ := hi.insert_missA p rnd v
      exact ⟨sl', a1, a2.holds⟩
    · rcases hi.removeA (p.toP hi) with ⟨q, iS, e, S, sl', e1, e2, hs, _⟩ | ⟨_, sl', a1, a2⟩
      · have h1 := p.first hi e2
        rw [(SLImpl.dec_hit _ _ _).2 hs] at h1
        exact nomatch h1
      · exact ⟨sl', a1, a2.holds⟩
  · rw [SL.find, hi.findNode_hitA p] at hf
    exact nomatch hf

/-- C175, something found: an entry of the list that compares equal. `LowerBound` points to it, `UpperBound` to the one after it, and `Insert` overwrites its value. -/
theorem C175_found (hb : SL.BuiltEach h sl) (hl : sl.Holds l) (k : K) {a : Nat} (hf : sl.find impl k = .ret (some a)) :
    ∃ G e S, l = G ++ e :: S ∧ impl.same e.1 k = true ∧ sl.readPtr a = .ret e.2 ∧
      sl.fromLower impl k = .ret (e :: S) ∧ sl.fromUpper impl k = .ret S ∧
      ∀ rnd v, ∃ sl', sl.insert impl rnd k v = .ret sl' ∧ sl'.Holds (G ++ (e.1, v) :: S) := by
  obtain ⟨ids, m, hi⟩ := hb.loose
  obtain rfl := hi.holds_eq hl
  rcases hi.search (impl.dec k) with ⟨iG, iR, G, R, p⟩ | ⟨iG, q, iS, G, e, S, p⟩
  · rw [SL.find, hi.findNode_missA p] at hf
    exact nomatch hf
  · rw [SL.find, hi.findNode_hitA p] at hf
    injection hf with hf
    injection hf with hf
    subst hf
    obtain ⟨n, hn, _, hv⟩ := SL.kv_some p.kq
    refine ⟨G, e, S, p.m_eq, p.same, by simp [SL.readPtr, SL.deref, idx_of_get hn, hv], hi.fromLower_hit p, hi.fromUpper_hit p, fun rnd v => ?_⟩
    obtain ⟨sl', a1, a2, _⟩ := hi.insert_hitA p rnd v
    exact ⟨sl', a1, a2.holds⟩

/-- C175, `Remove`: it looks for a border between an entry that is too small and one that is not, and takes the latter if it compares equal. (This may be another border than that of
`Find`, so an entry that `Find` finds may be one that `Remove` does not: the last example.) -/
theorem C175_remove (hb : SL.BuiltEach h sl) (hl : sl.Holds l) (k : K) :
    ∃ G R, l = G ++ R ∧ LastIs (impl.below · k) G ∧ FirstIs (fun a => !impl.below a k) R ∧
      ((∃ e S sl', R = e :: S ∧ impl.same e.1 k = true ∧ sl.remove impl k = .ret (sl', true) ∧ sl'.Holds (G ++ S)) ∨
       (FirstIs (impl.above · k) R ∧ ∃ sl', sl.remove impl k = .ret (sl', false) ∧ sl'.Holds l)) := by
  obtain ⟨ids, m, hi⟩ := hb.loose
  obtain rfl := hi.holds_eq hl
  obtain ⟨iG, iR, G, R, p⟩ := hi.searchP impl k
  have hfirst : ∀ e B, R = e :: B → impl.dec k e.1 ≠ .go := by
    intro e B hB hgo
    have := p.first hi hB
    rw [SLImpl.decP_eq_any, if_pos hgo] at this
    exact nomatch this
  refine ⟨G, R, p.m_eq, fun A e hA => ?_, fun e B hB => ?_, ?_⟩
  · have := p.last hA
    rw [SLImpl.decP_eq_any] at this
    by_cases hgo : impl.dec k e.1 = .go
    · exact (SLImpl.dec_go _ _ _).1 hgo
    · rw [if_neg hgo] at this; exact nomatch this
  · have := hfirst e B hB
    rw [ne_eq, SLImpl.dec_go] at this
    simpa using this
  · rcases hi.removeA p with ⟨q, iS, e, S, sl', e1, e2, hs, a1, a2⟩ | ⟨hno, sl', a1, a2⟩
    · exact .inl ⟨e, S, sl', e2, hs, a1, a2.holds⟩
    · refine .inr ⟨fun e B hB => ?_, sl', a1, a2.holds⟩
      cases hd : impl.dec k e.1 with
      | go => exact absurd hd (hfirst e B hB)
      | hit =>
        rw [SLImpl.dec_hit, hno e B hB] at hd
        exact nomatch hd
      | stop => exact (SLImpl.dec_stop _ _ _).1 hd

/-- C175, in order for one key: if all entries that are too small for `k` come before those that compare equal, and these before all that are too large, then everything works for `k`, in
whatever order the entries are otherwise. Without an entry that compares equal: -/
theorem C175_absent (hb : SL.BuiltEach h sl) (k : K) (G S : List (K × V)) (hl : sl.Holds (G ++ S))
    (hG : ∀ e ∈ G, impl.below e.1 k = true) (hS : ∀ e ∈ S, impl.above e.1 k = true) :
    sl.find impl k = .ret none ∧ sl.fromLower impl k = .ret S ∧ sl.fromUpper impl k = .ret S ∧
    (∀ rnd v, ∃ sl', sl.insert impl rnd k v = .ret sl' ∧ sl'.Holds (G ++ (k, v) :: S)) ∧
    ∃ sl', sl.remove impl k = .ret (sl', false) ∧ sl'.Holds (G ++ S) := by
  obtain ⟨ids, m, hi⟩ := hb.loose
  obtain rfl := hi.holds_eq hl
  have hG' : ∀ e ∈ G, impl.dec k e.1 = .go := fun e he => (SLImpl.dec_go _ _ _).2 (hG e he)
  have hS' : ∀ e ∈ S, impl.dec k e.1 = .stop := fun e he => (SLImpl.dec_stop _ _ _).2 (hS e he)
  have hf : sl.find impl k = .ret none := by
    rcases hi.search (impl.dec k) with ⟨iG, iR, G0, R0, p⟩ | ⟨iG, q, iS, G0, e, S0, p⟩
    · exact hi.findNode_missA p
    · obtain ⟨E1, E2, e1, _⟩ := hit_among (D := fun e : K × V => impl.dec k e.1) [] S hS' ((SLImpl.dec_hit _ _ _).2 p.same) G G0 p.m_eq hG'
      exact absurd e1 (by simp)
  obtain ⟨G0, R0, e0, b1, b2, b3, b4, b5, b6⟩ := C175_missed hb hl k hf
  obtain ⟨_, rfl, rfl⟩ := border_unique (D := fun e : K × V => impl.dec k e.1) [] S R0 (by simp) hS' G G0 e0 hG'
    (fun A e hA => (SLImpl.dec_go _ _ _).2 (b1 A e hA)) (fun e B hB => (SLImpl.dec_stop _ _ _).2 (b2 e B hB))
  exact ⟨hf, b3, b4, b5, b6⟩

/-- C175, in order for one key, with entries that compare equal: one of them is found. `Remove` takes the first of them. -/
theorem C175_present (hb : SL.BuiltEach h sl) (k : K) (G : List (K × V)) (e : K × V) (E S : List (K × V)) (hl : sl.Holds (G ++ (e :: E ++ S)))
    (hG : ∀ e ∈ G, impl.below e.1 k = true) (hE : ∀ x ∈ e :: E, impl.same x.1 k = true) (hS : ∀ e ∈ S, impl.above e.1 k = true) :
    (∃ E1 x E2 a, e :: E = E1 ++ x :: E2 ∧ sl.find impl k = .ret (some a) ∧ sl.readPtr a = .ret x.2 ∧
      sl.fromLower impl k = .ret (x :: E2 ++ S) ∧ sl.fromUpper impl k = .ret (E2 ++ S) ∧
      ∀ rnd v, ∃ sl', sl.insert impl rnd k v = .ret sl' ∧ sl'.Holds (G ++ (E1 ++ (x.1, v) :: E2 ++ S))) ∧
    ∃ sl', sl.remove impl k = .ret (sl', true) ∧ sl'.Holds (G ++ (E ++ S)) := by
  have hG' : ∀ e ∈ G, impl.dec k e.1 = .go := fun e he => (SLImpl.dec_go _ _ _).2 (hG e he)
  have hE' : ∀ x ∈ e :: E, impl.dec k x.1 = .hit := fun e he => (SLImpl.dec_hit _ _ _).2 (hE e he)
  have hS' : ∀ e ∈ S, impl.dec k e.1 = .stop := fun e he => (SLImpl.dec_stop _ _ _).2 (hS e he)
  constructor
  · cases hf : sl.find impl k with
    | ret o =>
      cases o with
      | none =>
        obtain ⟨G0, R0, e0, b1, b2, _⟩ := C175_missed hb hl k hf
        obtain ⟨h1, _⟩ := border_unique (D := fun e : K × V => impl.dec k e.1) (e :: E) S R0 hE' hS' G G0 e0 hG'
          (fun A e hA => (SLImpl.dec_go _ _ _).2 (b1 A e hA)) (fun e B hB => (SLImpl.dec_stop _ _ _).2 (b2 e B hB))
        exact nomatch h1
      | some a =>
        obtain ⟨G0, x, S0, e0, b1, b2, b3, b4, b5⟩ := C175_found hb hl k hf
        obtain ⟨E1, E2, e1, rfl, rfl⟩ := hit_among (D := fun e : K × V => impl.dec k e.1) (e :: E) S hS' ((SLImpl.dec_hit _ _ _).2 b1) G G0 e0 hG'
        refine ⟨E1, x, E2, a, e1, rfl, b2, b3, b4, fun rnd v => ?_⟩
        obtain ⟨sl', c1, c2⟩ := b5 rnd v
        exact ⟨sl', c1, by simpa using c2⟩
    | panic =>
      obtain ⟨ids, m, hi⟩ := hb.loose
      rcases hi.search (impl.dec k) with ⟨iG, iR, G0, R0, p⟩ | ⟨iG, q, iS, G0, e, S0, p⟩
      · rw [SL.find, hi.findNode_missA p] at hf; exact nomatch hf
      · rw [SL.find, hi.findNode_hitA p] at hf; exact nomatch hf
    | diverge =>
      obtain ⟨ids, m, hi⟩ := hb.loose
      rcases hi.search (impl.dec k) with ⟨iG, iR, G0, R0, p⟩ | ⟨iG, q, iS, G0, e, S0, p⟩
      · rw [SL.find, hi.findNode_missA p] at hf; exact nomatch hf
      · rw [SL.find, hi.findNode_hitA p] at hf; exact nomatch hf
  · obtain ⟨G0, R0, e0, b1, b2, b3⟩ := C175_remove (impl := impl) hb hl k
    have hD : ∀ x : K × V, impl.decP k x.1 = if impl.dec k x.1 = .go then .go else .stop := fun x => SLImpl.decP_eq_any _ _ _
    obtain ⟨_, rfl, rfl⟩ := border_unique (D := fun e : K × V => impl.decP k e.1) [] (e :: E ++ S) R0 (by simp)
      (fun x hx => by
        show impl.decP k x.1 = .stop
        rw [hD]
        rcases List.mem_append.1 hx with hx | hx
        · rw [hE' x hx]; rfl
        · rw [hS' x hx]; rfl)
      G G0 e0 (fun x hx => by show impl.decP k x.1 = .go; rw [hD, hG' x hx]; rfl)
      (fun A x hA => by show impl.decP k x.1 = .go; rw [hD, (SLImpl.dec_go _ _ _).2 (b1 A x hA)]; rfl)
      (fun x B hB => by
        show impl.decP k x.1 = .stop
        have : (!impl.below x.1 k) = true := b2 x B hB
        rw [hD, if_neg (fun hgo => by rw [SLImpl.dec_go] at hgo; rw [hgo] at this; exact nomatch this)])
    rcases b3 with ⟨x, S0, sl', e1, _, a1, a2⟩ | ⟨hx, _⟩
    · rw [List.cons_append, List.cons.injEq] at e1
      exact ⟨sl', a1, by rw [e1.2]; exact a2⟩
    · have := hx e (E ++ S) rfl
      rw [← SLImpl.dec_stop, hE' e (by simp)] at this
      exact nomatch this

/-- C175 holds for the lists of C90, with one comparison that obeys no law, -/
theorem C175_unlawful {h : List (Nat × SMOp K V)} (hb : SL.Built impl h sl) : SL.BuiltEach (h.map (fun o => (impl, o))) sl := by
  have key : ∀ (h : List (Nat × SMOp K V)) (s : SL K V), SL.runEach s (h.map (fun o => (impl, o))) = SL.run impl s h := by
    intro h
    induction h with
    | nil => intro s; rfl
    | cons o h ih =>
      intro s
      simp only [List.map_cons, SL.runEach, SL.run]
      cases s.exec impl o.1 o.2 with
      | ret r => simp only [Outcome.ret_bind, ih]
      | panic => rfl
      | diverge => rfl
  obtain ⟨obs, e⟩ := hb
  exact ⟨obs, (key h newSkipList).trans e⟩

/-- and for those of C166, whose keys refer to something the client changes: so the theorems above say what a search finds while keys are out of order. -/
theorem C175_changed {τ : Type} {c : τ → K → K → Int} {t t' : τ} {h : List (RefOp K V τ)} {obs : List (SMObs K V)}
    (hr : SL.runRefs c t newSkipList h = .ret ((t', sl), obs)) : ∃ h', SL.BuiltEach h' sl := by
  have key : ∀ (h : List (RefOp K V τ)) (t t' : τ) (s s' : SL K V) (obs : List (SMObs K V)), SL.runRefs c t s h = .ret ((t', s'), obs) →
      ∃ h', SL.runEach s h' = .ret (s', obs) := by
    intro h
    induction h with
    | nil =>
      intro t t' s s' obs e
      simp only [SL.runRefs, Outcome.ret.injEq, Prod.mk.injEq] at e
      exact ⟨[], by rw [SL.runEach, e.1.2, e.2]⟩
    | cons o h ih =>
      intro t t' s s' obs e
      cases o with
      | change t1 => exact ih t1 t' s s' obs e
      | call rnd op =>
        simp only [SL.runRefs] at e
        cases hx : s.exec (.func (c t)) rnd op with
        | ret r =>
          simp only [hx, Outcome.ret_bind] at e
          cases hy : SL.runRefs c t r.1 h with
          | ret y =>
            simp only [hy, Outcome.ret_bind, Outcome.pure_eq, Outcome.ret.injEq, Prod.mk.injEq] at e
            obtain ⟨h', e'⟩ := ih t t' r.1 s' y.2 (by rw [hy, ← e.1])
            refine ⟨(.func (c t), rnd, op) :: h', ?_⟩
            simp only [SL.runEach, hx, Outcome.ret_bind, e', Outcome.pure_eq]
            rw [e.2]
          | panic => rw [hy] at e; exact nomatch e
          | diverge => rw [hy] at e; exact nomatch e
        | panic => rw [hx] at e; exact nomatch e
        | diverge => rw [hx] at e; exact nomatch e
  obtain ⟨h', e⟩ := key h t t' newSkipList sl obs hr
  exact ⟨h', obs, e⟩

/-! ## Examples -/

/-- A comparison that puts every new entry at the end, and the order of integers. -/
def exAtEnd : SLImpl Int := .func (fun _ _ => -1)
def exUsual : SLImpl Int := .ordered inferInstance

/-- The keys 5, 2, 9, 3 in this order. The level of 2 depends on `r`. -/
def exMixed (r : Nat) : List (SLImpl Int × Nat × SMOp Int Int) :=
  [(exAtEnd, 2 ^ 39, .insert 5 50), (exAtEnd, r, .insert 2 20), (exAtEnd, 2 ^ 39, .insert 9 90), (exAtEnd, 2 ^ 39, .insert 3 30)]

/-- Searches for 4, which has two borders in it, before 5 and between 2 and 9; and for 10 and 1, for which the list is in order. -/
def exSearches (r : Nat) : Outcome (List (List (Int × Int))) := do
  let (sl, _) ← SL.runEach newSkipList (exMixed r)
  return [← sl.fromLower exUsual 4, ← sl.fromLower exUsual 10, ← sl.fromLower exUsual 1]

example : exSearches (2 ^ 39) = .ret [[(5, 50), (2, 20), (9, 90), (3, 30)], [], [(5, 50), (2, 20), (9, 90), (3, 30)]] ∧
    exSearches (2 ^ 38) = .ret [[(9, 90), (3, 30)], [], [(5, 50), (2, 20), (9, 90), (3, 30)]] := by decide +kernel

/-- The hypotheses of `C175_present` for 9 after the keys 5, 2 and before 20, 11: the entry is found, and removed. -/
def exOrderFor9 : List (SLImpl Int × Nat × SMOp Int Int) :=
  [(exAtEnd, 2 ^ 39, .insert 5 50), (exAtEnd, 2 ^ 38, .insert 2 20), (exAtEnd, 2 ^ 39, .insert 9 90), (exAtEnd, 2 ^ 37, .insert 20 0), (exAtEnd, 2 ^ 39, .insert 11 1)]

example : (SL.runEach newSkipList (exOrderFor9 ++ [(exUsual, 0, .find 9), (exUsual, 0, .remove 9), (exUsual, 0, .iterate)]) >>= fun r => .ret (r.2.drop 5)) =
    .ret [.val (some 90), .flag true, .entries [(5, 50), (2, 20), (20, 0), (11, 1)]] ∧
    [5, 2].all (exUsual.below · 9) = true ∧ exUsual.same 9 9 = true ∧ [20, 11].all (exUsual.above · 9) = true := by decide +kernel

/-- An entry that `Find` finds and `Remove` does not: the keys 9, 5, of which 5 has the higher level. -/
example : (SL.runEach newSkipList [(exAtEnd, 2 ^ 39, .insert 9 90), (exAtEnd, 2 ^ 38, .insert 5 50), (exUsual, 0, .find 5), (exUsual, 0, .remove 5), (exUsual, 0, .iterate)]
      >>= fun r => .ret r.2) = .ret [.unit, .unit, .val (some (50 : Int)), .flag false, .entries [(9, 90), (5, 50)]] := by decide +kernel

end Stl4go
