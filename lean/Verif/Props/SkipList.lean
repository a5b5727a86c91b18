import Verif.Proofs.SkipListRange
/-!
# Properties C17-C30: `/repo/skiplist.go`

`SMap` (`Spec/SortedMap.lean`) is the finite map with strictly ascending entries; `SL.run` (`Spec/SkipList.lean`) runs a history
on the model, each operation with the random number that would be drawn; `SL.Built impl h sl` says that `sl` is what history
`h` leaves behind, starting from the constructor. `impl` is either of the two implementations (`NewSkipList` and
`NewSkipListFunc`), `impl.less` its key order.
-/
namespace Stl4go
variable {K V σ : Type}
variable {impl : SLImpl K} {h : List (Nat × SMOp K V)} {sl : SL K V}

/-! ## C17: finite map -/

/-- C17: every history, with any random numbers, gives the observations of a finite map. -/
theorem C17_history (hl : impl.Lawful) (h : List (Nat × SMOp K V)) :
    ∃ sl, SL.run impl newSkipList h = .ret (sl, (SMap.run impl.less [] (opsOf h)).1) := by
  obtain ⟨sl, _, a1, _⟩ := (SLInv.new (V := V) impl.less).run hl h
  exact ⟨sl, a1⟩

/-- C17: the specification used above is a finite map: what is found after each update, and the number of entries. -/
theorem C17_spec_is_map {less : K → K → Bool} (hw : StrictWeak less) (h : List (Nat × SMOp K V)) (k k' : K) (v : V) :
    (∀ x, SMap.find less k (SMap.after less h) = some x ↔
      ∃ q, (q, x) ∈ SMap.after less h ∧ less q k = false ∧ less k q = false) ∧
    SMap.find less k' (SMap.insert less k v (SMap.after less h)) =
      (if less k k' || less k' k then SMap.find less k' (SMap.after less h) else some v) ∧
    SMap.find less k' (SMap.erase less k (SMap.after less h)) =
      (if less k k' || less k' k then SMap.find less k' (SMap.after less h) else none) ∧
    (SMap.insert less k v (SMap.after less h)).length =
      (if (SMap.find less k (SMap.after less h)).isSome then (SMap.after less h).length else (SMap.after less h).length + 1) ∧
    (SMap.erase less k (SMap.after less h)).length =
      (if (SMap.find less k (SMap.after less h)).isSome then (SMap.after less h).length - 1 else (SMap.after less h).length) := by
  have hs := SMap.after_sorted hw h
  exact ⟨fun x => SMap.find_eq_some hw hs, SMap.find_insert hw hs k k' v, SMap.find_erase hw hs k k', SMap.length_insert hw hs k v,
    SMap.length_erase hw hs k⟩

/-- A lawful compare function that returns other values than -1, 0, 1, and the history it runs: levels 3, 1, 2 and 1. -/
theorem exCmp_lawful : (SLImpl.func (fun a b : Int => a - b)).Lawful := by
  refine ⟨⟨fun a => by simp, fun a b c h1 h2 => by simp at *; omega, fun a b c h1 h2 h3 h4 => by simp at *; omega⟩,
    fun a b => by simp [Equiv]; omega⟩

def exHist : List (Nat × SMOp Int Int) :=
  [(2 ^ 37, .insert 5 50), (2 ^ 39, .insert 9 90), (2 ^ 38, .insert 1 10), (2 ^ 39, .insert 5 55), (0, .remove 9), (0, .remove 9),
   (0, .find 5), (0, .update 1 11), (0, .iterate), (0, .lowerBound 2), (0, .upperBound 5), (0, .len), (0, .clear), (0, .isEmpty)]

example : (SL.run (.func (fun a b => a - b)) newSkipList exHist >>= fun r => .ret r.2) =
    .ret [.unit, .unit, .unit, .unit, .flag true, .flag false, .val (some 55), .flag true, .entries [(1, 11), (5, 55)],
      .entries [(5, 55)], .entries [], .num 2, .unit, .flag true] := by decide +kernel

/-! ## C18: iteration -/

/-- C18: the iteration lists the entries of the finite map strictly ascending, exactly `Len()` of them. -/
theorem C18_iterate (hl : impl.Lawful) (hb : SL.Built impl h sl) :
    ∃ L, (sl.iterate >>= sl.observeIter) = .ret L ∧ SMap.Sorted impl.less L ∧ (L.length : Int) = sl.length ∧
      (∀ k v, (k, v) ∈ L ↔ (k, v) ∈ SMap.after impl.less h) := by
  obtain ⟨ids, hi⟩ := hb.inv hl
  refine ⟨SMap.after impl.less h, ?_, hi.sorted, ?_, fun _ _ => Iff.rfl⟩
  · rw [hi.iterate, Outcome.ret_bind, hi.observe (A := []) rfl hi.kvs]
  · rw [SL.length, hi.len_eq, hi.len_m]

/-- C18: `Find` agrees with the iteration. -/
theorem C18_iterate_find (hl : impl.Lawful) (hb : SL.Built impl h sl) (k : K) :
    ∃ L, (sl.iterate >>= sl.observeIter) = .ret L ∧ sl.has impl k = .ret (L.any (fun e => !impl.less e.1 k && !impl.less k e.1)) := by
  obtain ⟨ids, hi⟩ := hb.inv hl
  refine ⟨SMap.after impl.less h, ?_, ?_⟩
  · rw [hi.iterate, Outcome.ret_bind, hi.observe (A := []) rfl hi.kvs]
  · obtain ⟨iG, iH, iS, G, H, S, p⟩ := hi.pos hl k
    have hf := hi.findNode hl p
    have hc : ((SMap.after impl.less h).any (fun e => !impl.less e.1 k && !impl.less k e.1)) = iH.head?.isSome := by
      rw [p.sp.eq, List.any_append, List.any_append]
      have h1 : G.any (fun e => !impl.less e.1 k && !impl.less k e.1) = false := by
        rw [List.any_eq_false]; intro e he; simp [p.sp.go e he]
      have h3 : S.any (fun e => !impl.less e.1 k && !impl.less k e.1) = false := by
        rw [List.any_eq_false]; intro e he; simp [p.sp.stop e he]
      rw [h1, h3]
      rcases p.cases with ⟨rfl, rfl⟩ | ⟨q, e, rfl, rfl, _⟩
      · rfl
      · simp [p.sp.hit e]
    rw [hc]
    rcases p.cases with ⟨rfl, rfl⟩ | ⟨q, e, rfl, rfl, _⟩ <;> simp [SL.has, hf]

/-- C18: `ForEach` shows its callback exactly the entries that `Iterate` yields, in that order, and changes nothing.
The callback carries any state. -/
theorem C18_forEach (hl : impl.Lawful) (hb : SL.Built impl h sl) (f : σ → K → V → σ) (t : σ) :
    ∃ L, (sl.iterate >>= sl.observeIter) = .ret L ∧
      SL.forEach (fun s k v => .ret (s.1, f s.2 k v)) (sl, t) = .ret (sl, visitAll f t L) := by
  obtain ⟨ids, hi⟩ := hb.inv hl
  refine ⟨SMap.after impl.less h, ?_, hi.forEach f _ (fun _ _ _ => rfl) t⟩
  rw [hi.iterate, Outcome.ret_bind, hi.observe (A := []) rfl hi.kvs]

/-- With a recording callback the result is the iteration itself. -/
theorem C18_forEach_record (hl : impl.Lawful) (hb : SL.Built impl h sl) :
    ∃ L, (sl.iterate >>= sl.observeIter) = .ret L ∧
      SL.forEach (fun s k v => .ret (s.1, s.2 ++ [(k, v)])) (sl, []) = .ret (sl, L) := by
  obtain ⟨L, h1, h2⟩ := C18_forEach hl hb (fun t k v => t ++ [(k, v)]) []
  have : ∀ (L t : List (K × V)), visitAll (fun t k v => t ++ [(k, v)]) t L = t ++ L := by
    intro L
    induction L with
    | nil => intro t; simp [visitAll]
    | cons e L ih => intro t; simp [visitAll, ih]
  rw [this, List.nil_append] at h2
  exact ⟨L, h1, h2⟩

/-- The history of the examples below: keys 5, 9 and 1 with levels 3, 1 and 2. -/
def exPre : List (Nat × SMOp Int Int) := [(2 ^ 37, .insert 5 50), (2 ^ 39, .insert 9 90), (2 ^ 38, .insert 1 10)]

def exImpl : SLImpl Int := .ordered inferInstance

theorem exImpl_lawful : exImpl.Lawful := inferInstanceAs (LawfulGoOrd Int)

example : (SL.run exImpl newSkipList exPre >>= fun r => SL.forEach (fun s k v => .ret (s.1, s.2 ++ [(k, v)])) (r.1, []) >>= fun s => .ret s.2)
    = .ret [(1, 10), (5, 50), (9, 90)] := by decide +kernel

/-! ## C19: bounds -/

/-- C19: `LowerBound(k)` iterates exactly the entries with key ≥ k, `UpperBound(k)` those with key > k, in order. -/
theorem C19_bounds (hl : impl.Lawful) (hb : SL.Built impl h sl) (k : K) :
    ∃ L, (sl.iterate >>= sl.observeIter) = .ret L ∧
      (sl.lowerBoundIter impl k >>= sl.observeIter) = .ret (L.filter (fun e => !impl.less e.1 k)) ∧
      (sl.upperBoundIter impl k >>= sl.observeIter) = .ret (L.filter (fun e => impl.less k e.1)) := by
  obtain ⟨ids, hi⟩ := hb.inv hl
  obtain ⟨iG, iH, iS, G, H, S, p⟩ := hi.pos hl k
  refine ⟨SMap.after impl.less h, ?_, ?_, ?_⟩
  · rw [hi.iterate, Outcome.ret_bind, hi.observe (A := []) rfl hi.kvs]
  · have := hi.observe p.ids_eq p.kHS
    simp [-List.head?_append, SL.lowerBoundIter, hi.lowerBound hl p, this, SMap.lower_split hl.weak p.sp]
  · have := hi.observe (A := iG ++ iH) (B := iS) (by rw [p.ids_eq]; simp) p.kS
    simp [SL.upperBoundIter, hi.upperBound hl p, this, SMap.upper_split hl.weak p.sp]

example : (SL.run exImpl newSkipList exPre >>= fun r => r.1.upperBoundIter exImpl 1 >>= r.1.observeIter)
    = .ret [(5, 50), (9, 90)] := by decide +kernel

/-! ## C20, C21: FindRange -/

/-- C20, full statement (false, see `C20_counterexample`): `FindRange(first,last)` iterates `[first,last)`. -/
def C20_statement : Prop :=
  ∀ (h : List (Nat × SMOp Int Int)) (sl : SL Int Int) (first last : Int), SL.Built exImpl h sl → first ≤ last →
    (sl.findRange exImpl first last >>= sl.observeIter) =
      .ret ((SMap.after exImpl.less h).filter (fun e => decide (first ≤ e.1) && decide (e.1 < last)))

/-- C20 is false: with keys 1, 5, 9 the range `[1,9)` yields key 9 as well. -/
theorem C20_counterexample : ¬ C20_statement := by
  intro hs
  cases hx : SL.run exImpl newSkipList exPre with
  | ret r =>
    have h1 := hs exPre r.1 1 9 ⟨r.2, by rw [hx]⟩ (by decide)
    have h2 : (SL.run exImpl newSkipList exPre >>= fun r => r.1.findRange exImpl 1 9 >>= r.1.observeIter)
        = .ret [(1, 10), (5, 50), (9, 90)] := by decide +kernel
    rw [hx, Outcome.ret_bind, h1] at h2
    exact absurd h2 (by decide +kernel)
  | panic => exact absurd hx (by decide +kernel)
  | diverge => exact absurd hx (by decide +kernel)

/-- C20, what does hold: `FindRange(first,last)` with first ≤ last iterates exactly the entries with first ≤ key ≤ last; this is
`[first,last)` exactly when `last` is not a key. -/
theorem C20_findRange_partial (hl : impl.Lawful) (hb : SL.Built impl h sl) (first last : K) (hfl : impl.less last first = false) :
    ∃ L, (sl.iterate >>= sl.observeIter) = .ret L ∧
      (sl.findRange impl first last >>= sl.observeIter) =
        .ret (L.filter (fun e => !impl.less e.1 first && !impl.less last e.1)) ∧
      (sl.has impl last = .ret false → (sl.findRange impl first last >>= sl.observeIter) =
        .ret (L.filter (fun e => !impl.less e.1 first && impl.less e.1 last))) := by
  obtain ⟨L, hL, hh⟩ := C18_iterate_find hl hb last
  obtain ⟨ids, hi⟩ := hb.inv hl
  have hL2 : (sl.iterate >>= sl.observeIter) = .ret (SMap.after impl.less h) := by
    rw [hi.iterate, Outcome.ret_bind, hi.observe (A := []) rfl hi.kvs]
  rw [hL] at hL2; injection hL2 with hL2; subst hL2
  have hr := hi.findRange hl first last
  rw [if_neg] at hr
  · refine ⟨_, hL, hr, fun hlast => ?_⟩
    rw [hr]; congr 1
    rw [hh] at hlast; injection hlast with hlast
    apply List.filter_congr
    intro e he
    have := List.any_eq_false.1 hlast e he
    have hw := hl.weak
    cases h1 : impl.less e.1 last <;> cases h2 : impl.less last e.1 <;> simp_all
    have := hw.asymm h1; simp_all
  · simp only [List.any_eq_true, Bool.and_eq_true, not_exists, not_and]
    intro e _ h1 h2
    have := hl.weak.trans _ _ _ h1 h2
    simp [hfl] at this

/-- C21, full statement (false, see `C21_counterexample`): iterating the result of `FindRange` never panics. -/
def C21_statement : Prop :=
  ∀ (h : List (Nat × SMOp Int Int)) (sl : SL Int Int) (first last : Int), SL.Built exImpl h sl →
    ∃ L, (sl.findRange exImpl first last >>= sl.observeIter) = .ret L

/-- C21 is false: with keys 1, 5, 9 iterating `FindRange(9,1)` runs off the end of the list and dereferences nil. -/
theorem C21_counterexample : ¬ C21_statement := by
  intro hs
  cases hx : SL.run exImpl newSkipList exPre with
  | ret r =>
    obtain ⟨L, h1⟩ := hs exPre r.1 9 1 ⟨r.2, by rw [hx]⟩
    have h2 : (SL.run exImpl newSkipList exPre >>= fun r => r.1.findRange exImpl 9 1 >>= r.1.observeIter) = .panic := by
      decide +kernel
    rw [hx, Outcome.ret_bind, h1] at h2
    cases h2
  | panic => exact absurd hx (by decide +kernel)
  | diverge => exact absurd hx (by decide +kernel)

/-- C21, what does hold: the iteration panics exactly when some key lies strictly between `last` and `first` (so never for
first ≤ last), and otherwise ends. Building the iterator itself never panics. -/
theorem C21_findRange_partial (hl : impl.Lawful) (hb : SL.Built impl h sl) (first last : K) :
    (∃ it, sl.findRange impl first last = .ret it) ∧
    ∃ L, (sl.iterate >>= sl.observeIter) = .ret L ∧
      ((sl.findRange impl first last >>= sl.observeIter) = .panic ↔
        ∃ e ∈ L, impl.less last e.1 = true ∧ impl.less e.1 first = true) ∧
      (sl.findRange impl first last >>= sl.observeIter) ≠ .diverge ∧
      (impl.less last first = false → (sl.findRange impl first last >>= sl.observeIter) ≠ .panic) := by
  obtain ⟨ids, hi⟩ := hb.inv hl
  have hL2 : (sl.iterate >>= sl.observeIter) = .ret (SMap.after impl.less h) := by
    rw [hi.iterate, Outcome.ret_bind, hi.observe (A := []) rfl hi.kvs]
  obtain ⟨iG1, iH1, iS1, G1, H1, S1, p1⟩ := hi.pos hl first
  obtain ⟨iG2, iH2, iS2, G2, H2, S2, p2⟩ := hi.pos hl last
  refine ⟨⟨_, by simp [-List.head?_append, SL.findRange, hi.lowerBound hl p1, hi.upperBound hl p2]; rfl⟩, _, hL2, ?_⟩
  rw [hi.findRange hl first last]
  refine ⟨?_, ?_, ?_⟩
  · constructor
    · intro hp
      split at hp
      · rename_i hc; simpa using hc
      · cases hp
    · rintro ⟨e, he, h1, h2⟩
      rw [if_pos]; simp only [List.any_eq_true, Bool.and_eq_true]; exact ⟨e, he, h1, h2⟩
  · split <;> simp
  · intro hfl hp
    split at hp
    · rename_i hc
      simp only [List.any_eq_true, Bool.and_eq_true] at hc
      obtain ⟨e, _, h1, h2⟩ := hc
      have := hl.weak.trans _ _ _ h1 h2
      simp [hfl] at this
    · cases hp

/-! ## C22: no panic, no endless loop -/

/-- C22: no history panics or hangs, whatever the random generator returns. -/
theorem C22_total (hl : impl.Lawful) (h : List (Nat × SMOp K V)) :
    SL.run impl newSkipList h ≠ .panic ∧ SL.run impl newSkipList h ≠ .diverge := by
  obtain ⟨sl, e⟩ := C17_history hl h
  rw [e]; exact ⟨by simp, by simp⟩

/-- The draws with all 40 low bits zero give the highest possible level; at first that is cut to 3. -/
example : ((newSkipList : SL Int Int).randomLevel 0, (newSkipList : SL Int Int).randomLevel (2 ^ 64 - 1)) = (.ret 3, .ret 1) := by
  decide +kernel

/-! ## C23: random level -/

/-- C23: for every random number and every length the level is between 1 and 40, and if it exceeds 3 then
2^(level-3) ≤ Len(). (No assumption on the list is needed.) -/
theorem C23_randomLevel (sl : SL K V) (rnd : Nat) :
    ∃ l, sl.randomLevel rnd = .ret l ∧ 1 ≤ l ∧ l ≤ 40 ∧ (3 < l → (2 ^ (l - 3) : Int) ≤ sl.length) :=
  sl.randomLevel_spec rnd

example : ({ (newSkipList : SL Int Int) with len := 40 }).randomLevel 7 = .ret 8 := by decide +kernel
example : ({ (newSkipList : SL Int Int) with len := 2 ^ 50 }).randomLevel 0 = .ret 40 := by decide +kernel

/-! ## C24: the two implementations -/

/-- C24: a compare function that agrees with the operators gives the same results as the operators, for every history and
even for different random numbers. -/
theorem C24_func_eq_ordered [ord : GoOrd K] [LawfulGoOrd K] (cmp : K → K → Int)
    (hneg : ∀ a b, cmp a b < 0 ↔ GoOrd.lt a b = true) (hzero : ∀ a b, cmp a b = 0 ↔ GoEq.eq a b = true)
    (h h' : List (Nat × SMOp K V)) (hh : opsOf h = opsOf h') :
    ∃ s s' obs, SL.run (.func cmp) newSkipList h = .ret (s, obs) ∧ SL.run (.ordered ord) newSkipList h' = .ret (s', obs) := by
  have hless : (SLImpl.func cmp).less = (SLImpl.ordered ord).less := by
    funext a b
    simp only [SLImpl.less]
    have := hneg a b
    cases hx : GoOrd.lt a b <;> simp_all
  have hl2 : (SLImpl.ordered ord).Lawful := inferInstanceAs (LawfulGoOrd K)
  have hl1 : (SLImpl.func cmp).Lawful := by
    refine ⟨?_, ?_⟩
    · have := hl2.weak; rw [← hless] at this; exact this
    · intro a b
      rw [hzero, LawfulGoOrd.eq_iff]
      have h3 : (fun a b => decide (cmp a b < 0)) = GoOrd.lt := hless
      rw [h3]; exact Iff.rfl
  obtain ⟨s, e1⟩ := C17_history (V := V) hl1 h
  obtain ⟨s', e2⟩ := C17_history (V := V) hl2 h'
  exact ⟨s, s', _, e1, by rw [e2, hless, hh]⟩

/-- The hypotheses hold for `a - b` on mathematical integers. -/
example : (∀ a b : Int, a - b < 0 ↔ GoOrd.lt a b = true) ∧ (∀ a b : Int, a - b = 0 ↔ GoEq.eq a b = true) :=
  ⟨fun a b => by simp [GoOrd.lt]; omega, fun a b => by simp [GoEq.eq]; omega⟩

/-! ## C25: construction from a map -/

/-- C25: `NewSkipListFromMap` contains exactly the entries of the map (pairwise distinct keys), in key order. -/
theorem C25_fromMap [GoOrd K] [LawfulGoOrd K] (entries : List (Nat × K × V))
    (hd : (entries.map (·.2)).Pairwise (fun a b => GoEq.eq a.1 b.1 = false)) :
    ∃ sl L, newSkipListFromMap entries = .ret sl ∧ (sl.iterate >>= sl.observeIter) = .ret L ∧
      L.Perm (entries.map (·.2)) ∧ SMap.Sorted GoOrd.lt L ∧ SL.Behaves (.ordered inferInstance) sl L := by
  have hl : (SLImpl.ordered (inferInstance : GoOrd K)).Lawful := inferInstanceAs (LawfulGoOrd K)
  obtain ⟨sl, ids, a1, a2⟩ := (SLInv.new (V := V) (SLImpl.ordered (inferInstance : GoOrd K)).less).insertAll hl entries
  have hf : ∀ (es : List (Nat × K × V)) (m : List (K × V)),
      es.foldl (fun m e => SMap.insert (SLImpl.ordered (inferInstance : GoOrd K)).less e.2.1 e.2.2 m) m =
        (es.map (·.2)).foldl (fun m e => SMap.insert GoOrd.lt e.1 e.2 m) m := by
    intro es
    induction es with
    | nil => intro m; rfl
    | cons e es ih => intro m; simp only [List.foldl_cons, List.map_cons, ih]; rfl
  rw [hf] at a2
  obtain ⟨p1, p2⟩ := SMap.foldl_insert_perm (LawfulGoOrd.weak (T := K)) (entries.map (·.2)) [] List.Pairwise.nil (by
    rw [List.nil_append]
    refine hd.imp ?_
    intro a b hab
    have := LawfulGoOrd.eq_iff a.1 b.1
    cases h1 : GoOrd.lt a.1 b.1 <;> cases h2 : GoOrd.lt b.1 a.1 <;> simp_all)
  refine ⟨sl, _, a1, ?_, p1, p2, a2.behaves hl⟩
  rw [a2.iterate, Outcome.ret_bind, a2.observe (A := []) rfl a2.kvs]

/-- C25: two constructions from the same map, with any two iteration orders and random numbers, behave alike in every
later history. -/
theorem C25_order_independent [GoOrd K] [LawfulGoOrd K] (entries entries' : List (Nat × K × V))
    (hp : (entries.map (·.2)).Perm (entries'.map (·.2)))
    (hd : (entries.map (·.2)).Pairwise (fun a b => GoEq.eq a.1 b.1 = false)) :
    ∃ sl sl', newSkipListFromMap entries = .ret sl ∧ newSkipListFromMap entries' = .ret sl' ∧
      ∀ h : List (Nat × SMOp K V), ∃ s s' obs, SL.run (.ordered inferInstance) sl h = .ret (s, obs) ∧
        SL.run (.ordered inferInstance) sl' h = .ret (s', obs) := by
  obtain ⟨sl, L, a1, a2, a3, a4, a5⟩ := C25_fromMap entries hd
  obtain ⟨sl', L', b1, b2, b3, b4, b5⟩ := C25_fromMap entries' ((hp.pairwise_iff (by
    intro a b hab
    have h1 := LawfulGoOrd.eq_iff a.1 b.1
    have h2 := LawfulGoOrd.eq_iff b.1 a.1
    cases h3 : GoEq.eq b.1 a.1
    · rfl
    · rw [h3] at h2
      have := h2.1 rfl
      have := h1.2 ⟨this.2, this.1⟩
      simp [hab] at this)).1 hd)
  have : L = L' := SMap.sorted_perm_eq LawfulGoOrd.weak a4 b4 (a3.trans (hp.trans b3.symm))
  subst this
  refine ⟨sl, sl', a1, b1, fun h => ?_⟩
  obtain ⟨s, e1⟩ := a5 h
  obtain ⟨s', e2⟩ := b5 h
  exact ⟨s, s', _, e1, e2⟩

example : (newSkipListFromMap [(2 ^ 37, (5 : Int), "e"), (2 ^ 39, 1, "a"), (2 ^ 38, 3, "c")] >>= fun sl => sl.iterate >>= sl.observeIter)
    = .ret [(1, "a"), (3, "c"), (5, "e")] := by decide +kernel

/-! ## C26: pointers -/

/-- C26: `Find` returns a pointer exactly when the key is present, and reading it gives the current value. -/
theorem C26_find (hl : impl.Lawful) (hb : SL.Built impl h sl) (k : K) :
    (sl.find impl k = .ret none ∧ SMap.find impl.less k (SMap.after impl.less h) = none) ∨
    ∃ p v, sl.find impl k = .ret (some p) ∧ sl.readPtr p = .ret v ∧ SMap.find impl.less k (SMap.after impl.less h) = some v := by
  obtain ⟨ids, hi⟩ := hb.inv hl
  obtain ⟨iG, iH, iS, G, H, S, p⟩ := hi.pos hl k
  rcases p.cases with ⟨rfl, rfl⟩ | ⟨q, e, rfl, rfl, hkv⟩
  · exact .inl ⟨hi.findNode hl p, by rw [SMap.find_split p.sp]; rfl⟩
  · obtain ⟨a1, a2, a3⟩ := hi.find_at hl (by rw [p.ids_eq]; simp) hkv (p.sp.hit e (by simp))
    exact .inr ⟨q, e.2, a1, a3, a2⟩

/-- C26: writing through the pointer changes the value of that key and nothing else: the list is then the one of the history
that ends with the update, and the map of that history is `SMap.insert` of the key. -/
theorem C26_write (hl : impl.Lawful) (hb : SL.Built impl h sl) (k : K) (p : Nat) (hp : sl.find impl k = .ret (some p)) (v : V) :
    ∃ sl', sl.setValue p v = .ret sl' ∧ SL.Built impl (h ++ [(0, .update k v)]) sl' ∧
      sl'.Behaves impl (SMap.insert impl.less k v (SMap.after impl.less h)) := by
  obtain ⟨ids, hi⟩ := hb.inv hl
  obtain ⟨obs, hr⟩ := hb
  obtain ⟨iG, iH, iS, G, H, S, ps⟩ := hi.pos hl k
  have hf := hi.findNode hl ps
  rw [SL.find] at hp
  rcases ps.cases with ⟨rfl, rfl⟩ | ⟨q, e, rfl, rfl, hkv⟩
  · rw [hf] at hp; cases hp
  · rw [hf] at hp; injection hp with hp; injection hp with hp; subst hp
    obtain ⟨sl', a1, a2, _⟩ := hi.setValue (A := iG) (B := iS) (q := q) (mA := G) (mB := S) (e := e)
      (by rw [ps.ids_eq]; rfl) (by rw [ps.sp.eq]; rfl) ps.kG hkv ps.kS v
    refine ⟨sl', a1, ⟨obs ++ [.flag true], ?_⟩, ?_⟩
    · refine SL.run_append h _ _ _ _ _ _ hr ?_
      simp [SL.run, SL.exec, SL.find, hf, a1]
    · rw [SMap.insert_hit hl.weak ps.sp]
      exact SLInv.behaves hl a2

/-- C26: the pointer stays the pointer of its key, and reads its current value, after any further operations that neither
remove an equivalent key nor clear the list. -/
theorem C26_stable (hl : impl.Lawful) (hb : SL.Built impl h sl) (k : K) (p : Nat) (hp : sl.find impl k = .ret (some p))
    (h2 : List (Nat × SMOp K V)) (hk : ∀ o ∈ h2, Keeps impl.less k o.2) :
    ∃ sl' obs v, SL.run impl sl h2 = .ret (sl', obs) ∧ sl'.find impl k = .ret (some p) ∧ sl'.readPtr p = .ret v ∧
      SMap.find impl.less k (SMap.after impl.less (h ++ h2)) = some v := by
  obtain ⟨ids, hi⟩ := hb.inv hl
  obtain ⟨iG, iH, iS, G, H, S, ps⟩ := hi.pos hl k
  have hf := hi.findNode hl ps
  rw [SL.find] at hp
  rcases ps.cases with ⟨rfl, rfl⟩ | ⟨q, e, rfl, rfl, hkv⟩
  · rw [hf] at hp; cases hp
  · rw [hf] at hp; injection hp with hp; injection hp with hp; subst hp
    have hh := ps.sp.hit e (by simp)
    obtain ⟨sl', ids', v', a1, a2, a3, a4⟩ := SLInv.run_keeps hl h2 hi (by rw [ps.ids_eq]; simp) hkv hh hk
    obtain ⟨b1, b2, b3⟩ := a2.find_at hl a3 a4 hh
    exact ⟨sl', _, v', a1, b1, b3, by rw [after_append]; exact b2⟩

/-- A pointer to 5 survives inserts, a removal of another key, and reads a later overwrite. -/
example : (SL.run exImpl newSkipList exPre >>= fun r => r.1.find exImpl 5 >>= fun p =>
      SL.run exImpl r.1 [(0, .insert 4 40), (0, .remove 1), (0, .insert 5 51)] >>= fun r2 => r2.1.find exImpl 5 >>= fun p2 =>
      r2.1.readPtr 0 >>= fun v => .ret (p, p2, v)) = .ret (some 0, some 0, 51) := by decide +kernel

/-! ## C27: ForEach variants -/

/-- C27: `ForEachIf` shows the callback the entries in order up to the first false, and changes nothing. -/
theorem C27_forEachIf (hl : impl.Lawful) (hb : SL.Built impl h sl) (f : σ → K → V → σ × Bool) (t : σ) :
    SL.forEachIf (fun s k v => .ret ((s.1, (f s.2 k v).1), (f s.2 k v).2)) (sl, t) =
      .ret (sl, visitWhile f t (SMap.after impl.less h)) := by
  obtain ⟨ids, hi⟩ := hb.inv hl
  exact hi.forEachIf f _ (fun _ _ _ => rfl) t

/-- C27: `ForEachMutable` lets the callback replace every value, in order; keys stay. -/
theorem C27_forEachMutable (hl : impl.Lawful) (hb : SL.Built impl h sl) (f : σ → K → V → σ × V) (t : σ) :
    ∃ sl', SL.forEachMutable (mutOp f) (sl, t) = .ret (sl', (updateAll f t (SMap.after impl.less h)).1) ∧
      sl'.Behaves impl (updateAll f t (SMap.after impl.less h)).2 := by
  obtain ⟨ids, hi⟩ := hb.inv hl
  obtain ⟨sl', a1, a2⟩ := hi.forEachMutable f t
  exact ⟨sl', a1, a2.behaves hl⟩

/-- C27: `ForEachMutableIf` does so up to the first false; later values stay. -/
theorem C27_forEachMutableIf (hl : impl.Lawful) (hb : SL.Built impl h sl) (f : σ → K → V → σ × V × Bool) (t : σ) :
    ∃ sl', SL.forEachMutableIf (mutIfOp f) (sl, t) = .ret (sl', (updateWhile f t (SMap.after impl.less h)).1) ∧
      sl'.Behaves impl (updateWhile f t (SMap.after impl.less h)).2 := by
  obtain ⟨ids, hi⟩ := hb.inv hl
  obtain ⟨sl', a1, a2⟩ := hi.forEachMutableIf f t
  exact ⟨sl', a1, a2.behaves hl⟩

/-- The callback counts, doubles the value, and stops after key 5. -/
example : (SL.run exImpl newSkipList exPre >>= fun r =>
      SL.forEachMutableIf (mutIfOp (fun (t : Nat) k v => (t + 1, 2 * v, decide (k ≠ 5)))) (r.1, 0) >>= fun s =>
      s.1.iterate >>= s.1.observeIter >>= fun l => .ret (s.2, l)) = .ret (2, [(1, 20), (5, 100), (9, 90)]) := by decide +kernel

/-! ## C28: removing inside ForEach -/

/-- C28, generalised: the callback decides for each key whether to remove it; every original entry is visited once, in order,
and exactly the entries that were not removed remain. -/
theorem C28_sweep (hl : impl.Lawful) (hb : SL.Built impl h sl) (f : σ → K → V → σ × Bool) (t : σ) :
    ∃ sl', SL.forEach (sweepOp impl f) (sl, t) = .ret (sl', (sweep f t (SMap.after impl.less h)).1) ∧
      sl'.Behaves impl (sweep f t (SMap.after impl.less h)).2 := by
  obtain ⟨ids, hi⟩ := hb.inv hl
  obtain ⟨sl', ids', a1, a2⟩ := hi.sweep hl f t
  exact ⟨sl', a1, a2.behaves hl⟩

/-- C28: removing every key inside `ForEach` visits all entries in order and leaves a list that behaves as a new one. -/
theorem C28_remove_all (hl : impl.Lawful) (hb : SL.Built impl h sl) :
    ∃ sl', SL.forEach (sweepOp impl (fun t k v => (t ++ [(k, v)], true))) (sl, []) = .ret (sl', SMap.after impl.less h) ∧
      sl'.length = 0 ∧ sl'.Behaves impl [] := by
  obtain ⟨ids, hi⟩ := hb.inv hl
  obtain ⟨sl', ids', a1, a2⟩ := hi.sweep hl (fun t k v => (t ++ [(k, v)], true)) []
  have : ∀ (L t : List (K × V)), sweep (fun t k v => (t ++ [(k, v)], true)) t L = (t ++ L, []) := by
    intro L
    induction L with
    | nil => intro t; simp [sweep]
    | cons e L ih => intro t; simp [sweep, ih]
  rw [this] at a1 a2
  refine ⟨sl', by simpa using a1, ?_, a2.behaves hl⟩
  rw [SL.length, a2.len_eq, a2.len_m]; rfl

/-- Remove the keys greater than 4 while iterating. -/
example : (SL.run exImpl newSkipList exPre >>= fun r =>
      SL.forEach (sweepOp exImpl (fun t k _ => (t ++ [k], decide (k > 4)))) (r.1, []) >>= fun s =>
      s.1.iterate >>= s.1.observeIter >>= fun l => .ret (s.2, l)) = .ret ([1, 5, 9], [(1, 10)]) := by decide +kernel

/-! ## C29: Clear -/

/-- C29: after `Clear` the length is 0, nothing is found, the iteration is empty, and every later history behaves as on a new
list. -/
theorem C29_clear (hl : impl.Lawful) (hb : SL.Built impl h sl) :
    sl.clear.length = 0 ∧ (sl.clear.iterate >>= sl.clear.observeIter) = .ret [] ∧ (∀ k, sl.clear.has impl k = .ret false) ∧
    ∀ h2 : List (Nat × SMOp K V), ∃ s s' obs, SL.run impl sl.clear h2 = .ret (s, obs) ∧ SL.run impl newSkipList h2 = .ret (s', obs) := by
  obtain ⟨ids, hi⟩ := hb.inv hl
  have hc := hi.clear
  refine ⟨by rw [SL.length, hc.len_eq]; rfl, ?_, fun k => ?_, fun h2 => ?_⟩
  · rw [hc.iterate, Outcome.ret_bind, hc.observe (A := []) rfl hc.kvs]
  · obtain ⟨iG, iH, iS, G, H, S, p⟩ := hc.pos hl k
    have hf := hc.findNode hl p
    have : iH = [] := by have := p.ids_eq; simp at this; exact this.2.1
    subst this
    simp [SL.has, hf]
  · obtain ⟨s, e1⟩ := hc.behaves hl h2
    obtain ⟨s', e2⟩ := C17_history (V := V) hl h2
    exact ⟨s, s', _, e1, e2⟩

example : (SL.run exImpl newSkipList (exPre ++ [(0, .clear), (0, .insert 7 70), (0, .iterate), (0, .has 5)]) >>= fun r => .ret r.2)
    = .ret [.unit, .unit, .unit, .unit, .unit, .entries [(7, 70)], .flag false] := by decide +kernel

/-! ## C30: NaN keys -/

/-- C30, full statement (false, see `C30_counterexample`), for keys that may be NaN. -/
def C30_statement : Prop :=
  ∀ (h : List (Nat × SMOp NanInt Int)) (sl sl' : SL NanInt Int) (rnd rnd' : Nat) (k : NanInt) (v v' : Int),
    SL.Built (.ordered inferInstance) h sl → sl.insert (.ordered inferInstance) rnd k v = .ret sl' →
    sl'.has (.ordered inferInstance) k = .ret true ∧
    ∃ sl'', sl'.insert (.ordered inferInstance) rnd' k v' = .ret sl'' ∧ sl''.length = sl'.length

/-- C30 is false: an inserted NaN is not found and each insert of NaN adds an entry. -/
theorem C30_counterexample : ¬ C30_statement := by
  intro hs
  cases hx : (newSkipList : SL NanInt Int).insert (.ordered inferInstance) 0 .nan 1 with
  | ret s =>
    have := (hs [] newSkipList s 0 0 .nan 1 1 ⟨[], rfl⟩ hx).1
    have h2 : ((newSkipList : SL NanInt Int).insert (.ordered inferInstance) 0 .nan 1 >>= fun s => s.has (.ordered inferInstance) .nan)
        = .ret false := by decide +kernel
    rw [hx, Outcome.ret_bind, this] at h2
    cases h2
  | panic => exact absurd hx (by decide +kernel)
  | diverge => exact absurd hx (by decide +kernel)

/-- A NaN key also hides ordinary keys: 5 was inserted, a NaN of level 2 follows, and 5 is no longer found. -/
theorem C30_counterexample_hides :
    (SL.run (.ordered inferInstance) (newSkipList : SL NanInt Int)
      [(2 ^ 39, .insert (.num 5) 50), (0, .insert .nan 1), (0, .insert .nan 2), (0, .len), (0, .has (.num 5))] >>= fun r => .ret r.2)
    = .ret [.unit, .unit, .unit, .num 3, .flag false] := by decide +kernel

/-- C30, what does hold: for lawful orders (all `Ordered` types without NaN) an inserted key is found, with the inserted value, and
inserting it again keeps the length. -/
theorem C30_insert_has_partial (hl : impl.Lawful) (hb : SL.Built impl h sl) (rnd rnd' : Nat) (k : K) (v v' : V) :
    ∃ sl' sl'', sl.insert impl rnd k v = .ret sl' ∧ sl'.has impl k = .ret true ∧
      (∃ p, sl'.find impl k = .ret (some p) ∧ sl'.readPtr p = .ret v) ∧
      sl'.insert impl rnd' k v' = .ret sl'' ∧ sl''.length = sl'.length := by
  obtain ⟨ids, hi⟩ := hb.inv hl
  have hw := hl.weak
  have h3 : ∀ {s s' : SL K V} {r : Nat} {x : V} {o : SMObs K V}, s.exec impl r (.insert k x) = .ret (s', o) →
      s.insert impl r k x = .ret s' := by
    intro s s' r x o e
    simp only [SL.exec] at e
    cases hx : s.insert impl r k x with
    | ret y => rw [hx] at e; simp at e; rw [e.1]
    | panic => rw [hx] at e; cases e
    | diverge => rw [hx] at e; cases e
  obtain ⟨s1, i1, a1, a2⟩ := hi.exec hl rnd (.insert k v)
  obtain ⟨s2, i2, b1, b2⟩ := a2.exec hl rnd' (.insert k v')
  have hs1 := SMap.find_insert hw hi.sorted k k v
  rw [hw.irrefl k] at hs1
  simp only [SMap.step] at a2 b2
  obtain ⟨iG, iH, iS, G, H, S, p⟩ := a2.pos hl k
  have hf := a2.findNode hl p
  rw [SMap.find_split p.sp] at hs1
  rcases p.cases with ⟨rfl, rfl⟩ | ⟨q, e, rfl, rfl, hkv⟩
  · simp at hs1
  · simp at hs1; subst hs1
    obtain ⟨c1, _, c3⟩ := a2.find_at hl (by rw [p.ids_eq]; simp) hkv (p.sp.hit e (by simp))
    refine ⟨s1, s2, h3 a1, by simp [SL.has, hf], ⟨q, c1, c3⟩, h3 b1, ?_⟩
    rw [SL.length, SL.length, a2.len_eq, b2.len_eq, a2.len_m, b2.len_m, SMap.length_insert hw a2.sorted, SMap.find_split p.sp]
    rfl

end Stl4go
