import Verif.Proofs.SkipListSet
import Verif.Props.SkipList
/-!
# Properties C31-C32: `/repo/skiplist_set.go`

`SSet` (`Spec/SortedSet.lean`) is the finite set with strictly ascending elements.
-/
namespace Stl4go
variable {K σ : Type}
variable {impl : SLImpl K} {h : List (SSOp K)} {s : SLSet K}

/-- C31: every history, with any random numbers, gives the observations of a finite set (`Keys` ascending, `Insert`/`Remove` flags,
`InsertN`/`RemoveN` counts, bounds); nothing panics or hangs. Both `NewSkipListSet` and `NewSkipListSetFunc`. -/
theorem C31_history (hl : impl.Lawful) (h : List (SSOp K)) :
    ∃ s, SLSet.run impl newSkipListSet h = .ret (s, (SSet.run impl.less [] h).1) := by
  obtain ⟨s, _, _, a1, _⟩ := SLInv.set_run hl h (SLInv.new (V := Unit) impl.less)
  exact ⟨s, a1⟩

/-- C31: `NewSkipListSetOf` starts the history from the set of its arguments. -/
theorem C31_setOf [GoOrd K] [LawfulGoOrd K] (elements : List (Nat × K)) (h : List (SSOp K)) :
    ∃ s s', newSkipListSetOf elements = .ret s ∧ SLSet.run (.ordered inferInstance) s h =
      .ret (s', (SSet.run GoOrd.lt (SSet.addN GoOrd.lt (elements.map (·.2)) []).1 h).1) := by
  have hl : (SLImpl.ordered (inferInstance : GoOrd K)).Lawful := inferInstanceAs (LawfulGoOrd K)
  obtain ⟨s, ids, m, a1, a2, a3, _⟩ := SLInv.insertN hl elements (SLInv.new (V := Unit) (SLImpl.ordered (inferInstance : GoOrd K)).less)
  obtain ⟨s', _, _, b1, _⟩ := SLInv.set_run hl h a2
  rw [a3] at b1
  exact ⟨s, s', a1, b1⟩

/-- C31: the elements are strictly ascending, so no two are equivalent. -/
theorem C31_sorted (hl : impl.Lawful) (hb : SLSet.Built impl h s) :
    ∃ L, SLSet.keys s = .ret L ∧ SSet.Sorted impl.less L ∧ (L.length : Int) = SLSet.length s ∧ L = (SSet.run impl.less [] h).2 := by
  obtain ⟨ids, m, hi, hm⟩ := hb.inv hl
  exact ⟨_, hi.keys, hi.keys_sorted, hi.length_set.symm, hm⟩

/-- C31: what the specification means: membership after each update. -/
theorem C31_spec_is_set {less : K → K → Bool} (hw : StrictWeak less) (l : List K) (k k' : K) :
    (SSet.mem less k' l = true ↔ ∃ x ∈ l, less k' x = false ∧ less x k' = false) ∧
    (SSet.mem less k' (SSet.del less k l) = ((less k k' || less k' k) && SSet.mem less k' l)) ∧
    (SSet.mem less k (SSet.add less k l) = true) ∧
    ((less k k' || less k' k) = true → SSet.mem less k' (SSet.add less k l) = SSet.mem less k' l) := by
  have hne : ∀ {x : K}, (less k k' || less k' k) = true → less k' x = false → less x k' = false → (less k x || less x k) = true := by
    intro x hc h1 h2
    rcases Bool.eq_false_or_eq_true (less k x || less x k) with h | h
    · exact h
    · simp only [Bool.or_eq_false_iff] at h
      have a := hw.negTrans h.1 h2
      have b := hw.negTrans h1 h.2
      simp [a, b] at hc
  refine ⟨by simp [SSet.mem], ?_, ?_, ?_⟩
  · rw [Bool.eq_iff_iff]
    simp only [SSet.mem, SSet.del, List.any_eq_true, List.mem_filter, Bool.and_eq_true, Bool.not_eq_true']
    constructor
    · rintro ⟨x, ⟨hx, hc⟩, h1, h2⟩
      refine ⟨?_, x, hx, h1, h2⟩
      rcases Bool.eq_false_or_eq_true (less k k' || less k' k) with h | h
      · exact h
      · simp only [Bool.or_eq_false_iff] at h
        have a := hw.negTrans h.1 h1
        have b := hw.negTrans h2 h.2
        simp [a, b] at hc
    · rintro ⟨hc, x, hx, h1, h2⟩
      exact ⟨x, ⟨hx, hne hc h1 h2⟩, h1, h2⟩
  · rw [SSet.add]
    split
    · assumption
    · simp [SSet.mem, hw.irrefl]
  · intro hc
    rw [SSet.add]
    split
    · rfl
    · rename_i hm
      rw [Bool.eq_iff_iff]
      simp only [SSet.mem, List.any_eq_true, Bool.and_eq_true, Bool.not_eq_true', List.mem_append, List.mem_cons, List.mem_filter]
      constructor
      · rintro ⟨x, (⟨hx, _⟩ | rfl | ⟨hx, _⟩), h1, h2⟩
        · exact ⟨x, hx, h1, h2⟩
        · simp [h1, h2] at hc
        · exact ⟨x, hx, h1, h2⟩
      · rintro ⟨x, hx, h1, h2⟩
        have := hne hc h1 h2
        cases h3 : less k x
        · rw [h3] at this
          exact ⟨x, .inl ⟨hx, by simpa using this⟩, h1, h2⟩
        · exact ⟨x, .inr (.inr ⟨hx, h3⟩), h1, h2⟩

/-- C31: `ForEach` folds the callback over the ascending elements; `ForEachIf` stops after the first false. The set stays as it is. -/
theorem C31_forEach (hl : impl.Lawful) (hb : SLSet.Built impl h s) (f : σ → K → σ) (t : σ) :
    ∃ L, SLSet.keys s = .ret L ∧ SLSet.forEach (fun s k => .ret (s.1, f s.2 k)) (s, t) = .ret (s, L.foldl f t) := by
  obtain ⟨ids, m, hi, hm⟩ := hb.inv hl
  refine ⟨_, hi.keys, ?_⟩
  rw [← visitAll_keys]
  exact hi.forEach (fun t k _ => f t k) _ (fun _ _ _ => rfl) t

theorem C31_forEachIf (hl : impl.Lawful) (hb : SLSet.Built impl h s) (f : σ → K → σ × Bool) (t : σ) :
    ∃ L, SLSet.keys s = .ret L ∧ SLSet.forEachIf (fun s k => .ret ((s.1, (f s.2 k).1), (f s.2 k).2)) (s, t) =
      .ret (s, visitWhile (fun t k _ => f t k) t (L.map (fun k => (k, ())))) := by
  obtain ⟨ids, m, hi, hm⟩ := hb.inv hl
  refine ⟨_, hi.keys, ?_⟩
  have : (m.map (·.1)).map (fun k => (k, ())) = m := by
    rw [List.map_map]; exact List.map_id m
  rw [this]
  exact hi.forEachIf (fun t k _ => f t k) _ (fun _ _ _ => rfl) t

example : (SLSet.run exImpl newSkipListSet [.insert (2 ^ 37) 5, .insert 0 5, .insertN [(2 ^ 39, 1), (2 ^ 38, 9), (0, 1)], .keys,
      .removeN [5, 5, 7], .remove 9, .lowerBound 0, .upperBound 1, .has 9, .len, .clear, .isEmpty] >>= fun r => .ret r.2)
    = .ret [.flag true, .flag false, .num 2, .list [1, 5, 9], .num 1, .flag true, .list [1], .list [], .flag false, .num 1, .unit,
      .flag true] := by decide +kernel

/-! ## C32: bounds -/

/-- C32: `LowerBound` and `UpperBound`. -/
theorem C32_bounds (hl : impl.Lawful) (hb : SLSet.Built impl h s) (k : K) :
    ∃ L, SLSet.keys s = .ret L ∧
      (SLSet.lowerBoundIter impl s k >>= SLSet.observeIter s) = .ret (L.filter (fun x => !impl.less x k)) ∧
      (SLSet.upperBoundIter impl s k >>= SLSet.observeIter s) = .ret (L.filter (fun x => impl.less k x)) := by
  obtain ⟨ids, m, hi, hm⟩ := hb.inv hl
  refine ⟨_, hi.keys, ?_, ?_⟩
  · obtain ⟨iG, iH, iS, G, H, S, p⟩ := hi.pos hl k
    have := hi.observe p.ids_eq p.kHS
    have h2 := SMap.lower_split hl.weak p.sp
    simp only [SLSet.lowerBoundIter, hi.lowerBound hl p, Outcome.ret_bind, Outcome.pure_eq, SLSet.observe_eq, this, List.filter_map, ← h2]
    rfl
  · obtain ⟨iG, iH, iS, G, H, S, p⟩ := hi.pos hl k
    have := hi.observe (A := iG ++ iH) (B := iS) (by rw [p.ids_eq]; simp) p.kS
    have h2 := SMap.upper_split hl.weak p.sp
    simp only [SLSet.upperBoundIter, hi.upperBound hl p, Outcome.ret_bind, Outcome.pure_eq, SLSet.observe_eq, this, List.filter_map, ← h2]
    rfl

/-- C32, the false part of the full statement: `FindRange(first,last)` iterates `[first,last)`. -/
def C32_statement : Prop :=
  ∀ (h : List (SSOp Int)) (s : SLSet Int) (first last : Int), SLSet.Built exImpl h s → first ≤ last →
    (SLSet.findRange exImpl s first last >>= SLSet.observeIter s) =
      .ret ((SSet.run exImpl.less [] h).2.filter (fun x => decide (first ≤ x) && decide (x < last)))

/-- C32 is false for `FindRange`: on {1, 5} the range `[1,5)` yields 5. -/
theorem C32_counterexample : ¬ C32_statement := by
  intro hs
  cases hx : SLSet.run exImpl newSkipListSet [.insertN [(2 ^ 39, 1), (2 ^ 38, 5)]] with
  | ret r =>
    have h1 := hs [.insertN [(2 ^ 39, 1), (2 ^ 38, 5)]] r.1 1 5 ⟨r.2, by rw [hx]⟩ (by decide)
    have h2 : (SLSet.run exImpl newSkipListSet [.insertN [(2 ^ 39, 1), (2 ^ 38, 5)]] >>= fun r =>
        SLSet.findRange exImpl r.1 1 5 >>= SLSet.observeIter r.1) = .ret [1, 5] := by decide +kernel
    rw [hx, Outcome.ret_bind, h1] at h2
    exact absurd h2 (by decide +kernel)
  | panic => exact absurd hx (by decide +kernel)
  | diverge => exact absurd hx (by decide +kernel)

/-- C32, what `FindRange` does: it panics exactly when an element lies strictly between `last` and `first`, and otherwise iterates
the elements from `first` to `last`, both included; that is `[first,last)` when `last` is no element. -/
theorem C32_findRange_partial (hl : impl.Lawful) (hb : SLSet.Built impl h s) (first last : K) :
    ∃ L, SLSet.keys s = .ret L ∧
      (SLSet.findRange impl s first last >>= SLSet.observeIter s) =
        (if L.any (fun x => impl.less last x && impl.less x first) then .panic
         else .ret (L.filter (fun x => !impl.less x first && !impl.less last x))) ∧
      (impl.less last first = false → SSet.mem impl.less last L = false →
        (SLSet.findRange impl s first last >>= SLSet.observeIter s) = .ret (L.filter (fun x => !impl.less x first && impl.less x last))) := by
  obtain ⟨ids, m, hi, hm⟩ := hb.inv hl
  have key : (SLSet.findRange impl s first last >>= SLSet.observeIter s) =
        (if (m.map (·.1)).any (fun x => impl.less last x && impl.less x first) then .panic
         else .ret ((m.map (·.1)).filter (fun x => !impl.less x first && !impl.less last x))) := by
    have h1 := hi.findRange hl first last
    have h2 : (SLSet.findRange impl s first last >>= SLSet.observeIter s) =
        ((SL.findRange impl s first last >>= SL.observeIter s) >>= fun l => .ret (l.map (·.1))) := by
      rw [bind_assoc]
      show (SL.findRange impl s first last >>= SLSet.observeIter s) = _
      congr 1; funext it; exact SLSet.observe_eq s it
    rw [h2, h1, List.any_map, List.filter_map]
    have hc : ((fun x => impl.less last x && impl.less x first) ∘ fun x : K × Unit => x.fst) =
      (fun e : K × Unit => impl.less last e.1 && impl.less e.1 first) := rfl
    rw [hc]
    split
    · rfl
    · rfl
  refine ⟨_, hi.keys, key, fun hfl hlast => ?_⟩
  rw [key, if_neg]
  · congr 1
    apply List.filter_congr
    intro x hx
    have := List.any_eq_false.1 hlast x hx
    cases h1 : impl.less x last <;> cases h2 : impl.less last x <;> simp_all
    have := hl.weak.asymm h1; simp_all
  · simp only [List.any_eq_true, Bool.and_eq_true, not_exists, not_and]
    intro x _ h1 h2
    have := hl.weak.trans _ _ _ h1 h2
    simp [hfl] at this

end Stl4go
