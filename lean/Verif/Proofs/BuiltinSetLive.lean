import Verif.Spec.BuiltinSetLive
import Verif.Proofs.BuiltinSet
/-! # Lemmas about loops over maps that change -/
namespace Stl4go
variable {K σ α : Type}

/-- The maps without the numbers of the entries. -/
def LiveWorld.forget (w : LiveWorld K) : MWorld K := { maps := fun i => (w.maps i).map (·.key), next := w.next, loops := 0 }

theorem LiveWorld.keysOf_forget (w : LiveWorld K) (r : MRef) : w.forget.keysOf r = (w.entries r).map (·.key) := by
  cases r <;> rfl

/-- The numbers of the entries of a map are different and below the next one; maps not made yet have none. -/
structure LiveWorld.Good (w : LiveWorld K) : Prop where
  ids : ∀ i, ((w.maps i).map (·.id)).Nodup
  below : ∀ i, ∀ e ∈ w.maps i, e.id < w.ids
  unmade : ∀ i, w.next ≤ i → w.maps i = []

variable [GoEq K]

/-- From `w` to `w'` entries with old numbers are old entries, and those were kept (`Grows`) or none were added (`Shrinks`). -/
structure Evolves (w w' : LiveWorld K) : Prop where
  good : w'.Good
  ids : w.ids ≤ w'.ids
  old : ∀ i, ∀ e' ∈ w'.maps i, e'.id < w.ids → ∃ e ∈ w.maps i, e.id = e'.id ∧ GoEq.eq e.key e'.key = true

/-- All entries are kept. -/
def Grows (w w' : LiveWorld K) : Prop :=
  Evolves w w' ∧ ∀ i, ∀ e ∈ w.maps i, ∃ e' ∈ w'.maps i, e'.id = e.id ∧ GoEq.eq e.key e'.key = true

/-- There are no new entries. -/
def Shrinks (w w' : LiveWorld K) : Prop := Evolves w w' ∧ ∀ i, ∀ e' ∈ w'.maps i, e'.id < w.ids

section
variable [LawfulGoEq K]

theorem Evolves.refl {w : LiveWorld K} (h : w.Good) : Evolves w w := ⟨h, Nat.le_refl _, fun _ e he _ => ⟨e, he, rfl, LawfulGoEq.refl _⟩⟩

theorem Evolves.trans {w w' w'' : LiveWorld K} (h : Evolves w w') (h' : Evolves w' w'') : Evolves w w'' := by
  refine ⟨h'.good, Nat.le_trans h.ids h'.ids, fun i e he hi => ?_⟩
  obtain ⟨e1, m1, i1, k1⟩ := h'.old i e he (Nat.lt_of_lt_of_le hi h.ids)
  obtain ⟨e2, m2, i2, k2⟩ := h.old i e1 m1 (by omega)
  exact ⟨e2, m2, by omega, LawfulGoEq.trans _ _ _ k2 k1⟩

theorem Grows.refl {w : LiveWorld K} (h : w.Good) : Grows w w := ⟨.refl h, fun _ e he => ⟨e, he, rfl, LawfulGoEq.refl _⟩⟩

theorem Grows.trans {w w' w'' : LiveWorld K} (h : Grows w w') (h' : Grows w' w'') : Grows w w'' := by
  refine ⟨h.1.trans h'.1, fun i e he => ?_⟩
  obtain ⟨e1, m1, i1, k1⟩ := h.2 i e he
  obtain ⟨e2, m2, i2, k2⟩ := h'.2 i e1 m1
  exact ⟨e2, m2, by omega, LawfulGoEq.trans _ _ _ k1 k2⟩

theorem Shrinks.refl {w : LiveWorld K} (h : w.Good) : Shrinks w w := ⟨.refl h, h.below⟩

theorem Shrinks.trans {w w' w'' : LiveWorld K} (h : Shrinks w w') (h' : Shrinks w' w'') : Shrinks w w'' := by
  refine ⟨h.1.trans h'.1, fun i e he => ?_⟩
  obtain ⟨e1, m1, i1, k1⟩ := h'.1.old i e he (h'.2 i e he)
  have := h.2 i e1 m1
  omega

/-! ## The number of choices does not matter -/

omit [GoEq K] [LawfulGoEq K] in
theorem LiveWorld.Good.steps {w : LiveWorld K} (h : w.Good) (n : Nat) : LiveWorld.Good { w with steps := n } := ⟨h.ids, h.below, h.unmade⟩

omit [LawfulGoEq K] in
theorem Grows.steps {w w' : LiveWorld K} (h : Grows w w') (n : Nat) : Grows w { w' with steps := n } :=
  ⟨⟨h.1.good.steps n, h.1.ids, h.1.old⟩, h.2⟩

omit [LawfulGoEq K] in
theorem Shrinks.steps {w w' : LiveWorld K} (h : Shrinks w w') (n : Nat) : Shrinks w { w' with steps := n } :=
  ⟨⟨h.1.good.steps n, h.1.ids, h.1.old⟩, h.2⟩

/-! ## Assignment, deletion, new maps -/

omit [LawfulGoEq K] in
theorem LiveWorld.forget_assign (rep : Bool) (w : LiveWorld K) (i : Nat) (k : K) :
    (w.assign rep i k).forget = w.forget.put i (assignKey rep (w.forget.maps i) k) := by
  unfold LiveWorld.assign assignKey
  simp only [LiveWorld.forget, List.any_map, Function.comp_def]
  by_cases h : (w.maps i).any (fun e => GoEq.eq k e.key)
  · rw [if_pos h, if_pos h]
    simp only [MWorld.put, LiveWorld.put]
    congr 1
    funext j
    split
    · rw [List.map_map, List.map_map]
      apply List.map_congr_left
      intro e _
      simp only [Function.comp_apply]
      split <;> rfl
    · rfl
  · rw [if_neg h, if_neg h]
    simp only [MWorld.put, LiveWorld.put]
    congr 1
    funext j
    split <;> simp

omit [LawfulGoEq K] in
theorem LiveWorld.forget_delete (w : LiveWorld K) (i : Nat) (k : K) :
    (w.put i ((w.maps i).filter (fun e => !GoEq.eq k e.key))).forget = w.forget.put i ((w.forget.maps i).filter (fun e => !GoEq.eq k e)) := by
  simp only [LiveWorld.forget, MWorld.put, LiveWorld.put]
  congr 1
  funext j
  split
  · rw [List.filter_map]; rfl
  · rfl

theorem LiveWorld.Good.assign {w : LiveWorld K} (h : w.Good) (rep : Bool) (i : Nat) (hi : i < w.next) (k : K) : Grows w (w.assign rep i k) := by
  unfold LiveWorld.assign
  by_cases hk : (w.maps i).any (fun e => GoEq.eq k e.key)
  · rw [if_pos hk]
    have hid : ∀ l : List (Entry K), (l.map (fun e => if rep && GoEq.eq k e.key then { e with key := k } else e)).map (·.id) = l.map (·.id) := by
      intro l
      rw [List.map_map]
      apply List.map_congr_left
      intro e _
      simp only [Function.comp_apply]
      split <;> rfl
    have hkey : ∀ e : Entry K, (if rep && GoEq.eq k e.key then ({ e with key := k } : Entry K) else e).id = e.id ∧
        GoEq.eq e.key (if rep && GoEq.eq k e.key then ({ e with key := k } : Entry K) else e).key = true := by
      intro e
      split
      · rename_i hr
        simp only [Bool.and_eq_true] at hr
        exact ⟨rfl, LawfulGoEq.symm _ _ hr.2⟩
      · exact ⟨rfl, LawfulGoEq.refl _⟩
    refine ⟨⟨⟨fun j => ?_, fun j e he => ?_, fun j hj => ?_⟩, Nat.le_refl _, fun j e he _ => ?_⟩, fun j e he => ?_⟩
    · simp only [LiveWorld.put]
      split
      · rw [hid]; exact h.ids i
      · exact h.ids j
    · simp only [LiveWorld.put] at he ⊢
      split at he
      · obtain ⟨e1, m1, rfl⟩ := List.mem_map.1 he
        rw [(hkey e1).1]
        exact h.below i e1 m1
      · exact h.below j e he
    · have : j ≠ i := by simp only [LiveWorld.put] at hj; omega
      simp only [LiveWorld.put, if_neg this]
      exact h.unmade j hj
    · simp only [LiveWorld.put] at he
      split at he
      · rename_i hji
        subst hji
        obtain ⟨e1, m1, rfl⟩ := List.mem_map.1 he
        exact ⟨e1, m1, (hkey e1).1.symm, (hkey e1).2⟩
      · exact ⟨e, he, rfl, LawfulGoEq.refl _⟩
    · simp only [LiveWorld.put]
      split
      · rename_i hji
        subst hji
        exact ⟨_, List.mem_map.2 ⟨e, he, rfl⟩, (hkey e).1, (hkey e).2⟩
      · exact ⟨e, he, rfl, LawfulGoEq.refl _⟩
  · rw [if_neg hk]
    refine ⟨⟨⟨fun j => ?_, fun j e he => ?_, fun j hj => ?_⟩, Nat.le_succ _, fun j e he hid => ?_⟩, fun j e he => ?_⟩
    · simp only [LiveWorld.put]
      split
      · rw [List.map_append, List.nodup_append]
        refine ⟨h.ids i, by simp, ?_⟩
        intro a ha b hb
        obtain ⟨e, he, rfl⟩ := List.mem_map.1 ha
        simp only [List.map_cons, List.map_nil, List.mem_singleton] at hb
        have := h.below i e he
        omega
      · exact h.ids j
    · simp only [LiveWorld.put] at he ⊢
      split at he
      · rw [List.mem_append, List.mem_singleton] at he
        rcases he with he | rfl
        · have := h.below i e he; omega
        · exact Nat.lt_succ_self _
      · have := h.below j e he; omega
    · have : j ≠ i := by simp only [LiveWorld.put] at hj; omega
      simp only [LiveWorld.put, if_neg this]
      exact h.unmade j hj
    · simp only [LiveWorld.put] at he
      split at he
      · rename_i hji
        subst hji
        rw [List.mem_append, List.mem_singleton] at he
        rcases he with he | rfl
        · exact ⟨e, he, rfl, LawfulGoEq.refl _⟩
        · exact absurd hid (Nat.lt_irrefl _)
      · exact ⟨e, he, rfl, LawfulGoEq.refl _⟩
    · simp only [LiveWorld.put]
      split
      · rename_i hji
        subst hji
        exact ⟨e, List.mem_append_left _ he, rfl, LawfulGoEq.refl _⟩
      · exact ⟨e, he, rfl, LawfulGoEq.refl _⟩

theorem LiveWorld.Good.delete {w : LiveWorld K} (h : w.Good) (i : Nat) (k : K) :
    Shrinks w (w.put i ((w.maps i).filter (fun e => !GoEq.eq k e.key))) := by
  have hmem : ∀ j, ∀ e ∈ (w.put i ((w.maps i).filter (fun e => !GoEq.eq k e.key))).maps j, e ∈ w.maps j := by
    intro j e he
    simp only [LiveWorld.put] at he
    split at he
    · rename_i hji
      subst hji
      exact (List.mem_filter.1 he).1
    · exact he
  refine ⟨⟨⟨fun j => ?_, fun j e he => h.below j e (hmem j e he), fun j hj => ?_⟩, Nat.le_refl _, fun j e he _ => ⟨e, hmem j e he, rfl, LawfulGoEq.refl _⟩⟩,
    fun j e he => h.below j e (hmem j e he)⟩
  · simp only [LiveWorld.put]
    split
    · exact (h.ids i).sublist (List.filter_sublist.map _)
    · exact h.ids j
  · simp only [LiveWorld.put]
    split
    · rename_i hji
      subst hji
      rw [h.unmade j hj]; rfl
    · exact h.unmade j hj

omit [LawfulGoEq K] [GoEq K] in
theorem LiveWorld.put_same (w : LiveWorld K) (i : Nat) : w.put i (w.maps i) = w := by
  cases w
  unfold LiveWorld.put
  congr 1
  funext j
  simp only
  split
  · rename_i h; rw [h]
  · rfl

theorem LiveWorld.Good.make {w : LiveWorld K} (h : w.Good) : Grows w { w.put w.next [] with next := w.next + 1 } := by
  have : w.put w.next [] = w := by
    have := w.put_same w.next
    rwa [h.unmade w.next (Nat.le_refl _)] at this
  rw [this]
  exact ⟨⟨⟨h.ids, h.below, fun i hi => h.unmade i (by simp only at hi; omega)⟩, Nat.le_refl _, fun _ e he _ => ⟨e, he, rfl, LawfulGoEq.refl _⟩⟩,
    fun _ e he => ⟨e, he, rfl, LawfulGoEq.refl _⟩⟩

end

/-! ## Loops that do not change what they have still to produce -/

omit [GoEq K] in
theorem mem_of_id {E : List (Entry K)} (h : (E.map (·.id)).Nodup) {a b : Entry K} (ha : a ∈ E) (hb : b ∈ E) (hab : a.id = b.id) : a = b := by
  induction E with
  | nil => cases ha
  | cons e E ih =>
    simp only [List.map_cons, List.nodup_cons, List.mem_map, not_exists, not_and] at h
    rcases List.mem_cons.1 ha with ea | ha'
    · rcases List.mem_cons.1 hb with eb | hb'
      · rw [ea, eb]
      · exact absurd (by rw [← hab, ea]) (h.1 b hb')
    · rcases List.mem_cons.1 hb with eb | hb'
      · exact absurd (by rw [hab, eb]) (h.1 a ha')
      · exact ih h.2 ha' hb'

omit [GoEq K] in
theorem nodup_of_ids {E : List (Entry K)} (h : (E.map (·.id)).Nodup) : E.Nodup := by
  induction E with
  | nil => exact List.nodup_nil
  | cons e E ih =>
    simp only [List.map_cons, List.nodup_cons] at h
    exact List.nodup_cons.2 ⟨fun hm => h.1 (List.mem_map.2 ⟨e, hm, rfl⟩), ih h.2⟩

omit [GoEq K] in
/-- The runtime produces an entry it has not produced, or ends the loop if only new ones are left. -/
theorem nextEntry_cases (rt : LiveRt K) (s : MRef) (b : Nat) (seen : List Nat) (w : LiveWorld K) :
    (∃ e, Live.nextEntry rt s b seen w = .ok (some e) { w with steps := w.steps + 1 } ∧ e ∈ w.entries s ∧ ¬ e.id ∈ seen) ∨
    (Live.nextEntry rt s b seen w = .ok none { w with steps := w.steps + 1 } ∧ ∀ e ∈ w.entries s, ¬ e.id ∈ seen → b ≤ e.id) := by
  unfold Live.nextEntry
  simp only
  cases hp : ((w.entries s).filter (fun e => !seen.contains e.id))[rt.pick w.steps ((w.entries s).filter (fun e => !seen.contains e.id))]? with
  | some e =>
    obtain ⟨h1, h2⟩ := List.mem_filter.1 (List.mem_of_getElem? hp)
    exact .inl ⟨e, rfl, h1, by simpa using h2⟩
  | none =>
    simp only
    cases hf : ((w.entries s).filter (fun e => !seen.contains e.id)).find? (fun e => decide (e.id < b)) with
    | some e =>
      obtain ⟨h1, h2⟩ := List.mem_filter.1 (List.mem_of_find?_eq_some hf)
      exact .inl ⟨e, rfl, h1, by simpa using h2⟩
    | none =>
      refine .inr ⟨rfl, fun e he hs => ?_⟩
      rw [List.find?_eq_none] at hf
      have := hf e (List.mem_filter.2 ⟨he, by simpa using hs⟩)
      simpa using this

omit [GoEq K] in
/-- The rule for a loop whose body always returns and leaves alone the entries the loop has still to produce: `I` holds for what has been done
when it ends, or `J` when it is left. -/
theorem range_rule (rt : LiveRt K) (extra : Nat) (s : MRef) (body : σ → K → GoM (LiveWorld K) (σ × Bool)) (t : σ) (w : LiveWorld K)
    (hid : ((w.entries s).map (·.id)).Nodup) (hb : ∀ e ∈ w.entries s, e.id < w.ids)
    (I : List (Entry K) → σ → LiveWorld K → Prop) (J : σ → LiveWorld K → Prop)
    (h0 : I [] t w)
    (hsteps : ∀ d t w' n, I d t w' → I d t { w' with steps := n })
    (hopen : ∀ d t w', I d t w' → ∀ e : Entry K, (∀ x ∈ d, x.id ≠ e.id) → (e ∈ w'.entries s ↔ e ∈ w.entries s))
    (hbody : ∀ d t w' (e : Entry K), I d t w' → e ∈ w.entries s → (∀ x ∈ d, x.id ≠ e.id) →
      ∃ r w'', body t e.key w' = .ok r w'' ∧ if r.2 then I (d ++ [e]) r.1 w'' else J r.1 w'') :
    ∃ r w', Live.range rt extra s body t w = .ok r w' ∧ ((∃ d, d.Perm (w.entries s) ∧ I d r w') ∨ J r w') := by
  have loop : ∀ (fuel : Nat) (d : List (Entry K)) (seen : List Nat) (t : σ) (w' : LiveWorld K), I d t w' → (∀ n, n ∈ seen ↔ ∃ x ∈ d, x.id = n) →
      (∀ x ∈ d, x ∈ w.entries s) → (d.map (·.id)).Nodup → (w.entries s).length < d.length + fuel →
      ∃ r w'', Live.rangeLoop rt s w.ids body fuel seen t w' = .ok r w'' ∧ ((∃ d, d.Perm (w.entries s) ∧ I d r w'') ∨ J r w'') := by
    intro fuel
    induction fuel with
    | zero =>
      intro d seen t w' _ _ hsub hnd hlen
      have := List.Nodup.length_le_of_subset (nodup_of_ids hnd) hsub
      omega
    | succ fuel ih =>
      intro d seen t w' hI hseen hsub hnd hlen
      have hI' := hsteps d t w' (w'.steps + 1) hI
      have hcand : ∀ e : Entry K, e ∈ (w'.entries s).filter (fun e => !seen.contains e.id) → e ∈ w.entries s ∧ ∀ x ∈ d, x.id ≠ e.id := by
        intro e he
        obtain ⟨h1, h2⟩ := List.mem_filter.1 he
        have h3 : ∀ x ∈ d, x.id ≠ e.id := by
          intro x hx hxe
          have : e.id ∈ seen := (hseen e.id).2 ⟨x, hx, hxe⟩
          simp [this] at h2
        exact ⟨(hopen d t w' hI e h3).1 h1, h3⟩
      have step : ∀ e : Entry K, e ∈ (w'.entries s).filter (fun e => !seen.contains e.id) →
          ∃ r w'', (do
              let a ← body t e.key
              if a.2 then Live.rangeLoop rt s w.ids body fuel (e.id :: seen) a.1 else pure a.1 : GoM (LiveWorld K) σ) { w' with steps := w'.steps + 1 } = .ok r w'' ∧ ((∃ d, d.Perm (w.entries s) ∧ I d r w'') ∨ J r w'') := by
        intro e he
        obtain ⟨he1, he2⟩ := hcand e he
        obtain ⟨r, w2, eb, hr⟩ := hbody d t _ e hI' he1 he2
        simp only [GoM.bind_def, eb]
        by_cases hgo : r.2 = true
        · rw [if_pos hgo] at hr ⊢
          refine ih (d ++ [e]) (e.id :: seen) r.1 w2 hr ?_ ?_ ?_ ?_
          · intro n
            rw [List.mem_cons, hseen n]
            simp only [List.mem_append, List.mem_singleton]
            constructor
            · rintro (rfl | ⟨x, hx, rfl⟩)
              · exact ⟨e, .inr rfl, rfl⟩
              · exact ⟨x, .inl hx, rfl⟩
            · rintro ⟨x, hx | rfl, rfl⟩
              · exact .inr ⟨x, hx, rfl⟩
              · exact .inl rfl
          · intro x hx
            rcases List.mem_append.1 hx with hx | hx
            · exact hsub x hx
            · rw [List.mem_singleton] at hx; subst hx; exact he1
          · rw [List.map_append, List.nodup_append]
            refine ⟨hnd, by simp, ?_⟩
            intro a ha b hb'
            obtain ⟨x, hx, rfl⟩ := List.mem_map.1 ha
            simp only [List.map_cons, List.map_nil, List.mem_singleton] at hb'
            subst hb'
            exact he2 x hx
          · simp; omega
        · rw [if_neg hgo] at hr ⊢
          exact ⟨_, _, rfl, .inr hr⟩
      rcases nextEntry_cases rt s w.ids seen w' with ⟨e, en, he, hs⟩ | ⟨en, hf⟩
      · obtain ⟨r, w2, e1, e2⟩ := step e (List.mem_filter.2 ⟨he, by simpa using hs⟩)
        refine ⟨r, w2, ?_, e2⟩
        rw [← e1]
        simp only [Live.rangeLoop, GoM.bind_def, en]
      · refine ⟨t, _, by simp only [Live.rangeLoop, GoM.bind_def, en, GoM.pure_apply], .inl ⟨d, ?_, hI'⟩⟩
        · rw [List.perm_ext_iff_of_nodup (nodup_of_ids hnd) (nodup_of_ids hid)]
          intro e
          refine ⟨hsub e, fun he => ?_⟩
          by_cases hx : ∃ x ∈ d, x.id = e.id
          · obtain ⟨x, hx, hxe⟩ := hx
            rw [← mem_of_id hid (hsub x hx) he hxe]
            exact hx
          · have hne : ∀ x ∈ d, x.id ≠ e.id := fun x hx' h => hx ⟨x, hx', h⟩
            exact absurd (hb e he) (Nat.not_lt.2 (hf e ((hopen d t w' hI e hne).2 he) (fun h => hx ((hseen _).1 h))))
  unfold Live.range
  exact loop _ [] [] t w h0 (by simp) (by simp) (by simp) (by simp; omega)

/-! ## What the loops of the operations do -/

/-- Only map `i` changes, to one with the keys `l`. -/
structure LPut (w w' : LiveWorld K) (i : Nat) (l : List K) : Prop where
  next : w'.next = w.next
  others : ∀ j, j ≠ i → w'.maps j = w.maps j
  keys : (w'.maps i).map (·.key) = l

omit [GoEq K] in
theorem LPut.entries {w w' : LiveWorld K} {i : Nat} {l : List K} (h : LPut w w' i l) (r : MRef) (hr : r ≠ some i) : w'.entries r = w.entries r := by
  cases r with
  | none => rfl
  | some j => exact h.others j (fun e => hr (by rw [e]))

omit [GoEq K] in
theorem LPut.steps {w w' : LiveWorld K} {i : Nat} {l : List K} (h : LPut w w' i l) (n : Nat) : LPut w { w' with steps := n } i l := ⟨h.next, h.others, h.keys⟩

omit [GoEq K] in
theorem LPut.trans {w w' w'' : LiveWorld K} {i : Nat} {l l' : List K} (h : LPut w w' i l) (h' : LPut w' w'' i l') : LPut w w'' i l' :=
  ⟨h'.next.trans h.next, fun j hj => (h'.others j hj).trans (h.others j hj), h'.keys⟩

omit [GoEq K] in
theorem LPut.refl (w : LiveWorld K) (i : Nat) : LPut w w i ((w.maps i).map (·.key)) := ⟨rfl, fun _ _ => rfl, rfl⟩

theorem LPut.assign (rep : Bool) (w : LiveWorld K) (i : Nat) (k : K) : LPut w (w.assign rep i k) i (assignKey rep ((w.maps i).map (·.key)) k) := by
  have h := w.forget_assign rep i k
  have hm : ∀ j, ((w.assign rep i k).maps j).map (·.key) = if j = i then assignKey rep ((w.maps i).map (·.key)) k else (w.maps j).map (·.key) :=
    fun j => congrFun (congrArg MWorld.maps h) j
  refine ⟨?_, fun j hj => ?_, by rw [hm i, if_pos rfl]⟩
  · unfold LiveWorld.assign
    split <;> rfl
  · unfold LiveWorld.assign
    split <;> simp [LiveWorld.put, hj]

theorem LPut.delete (w : LiveWorld K) (i : Nat) (k : K) : LPut w (w.put i ((w.maps i).filter (fun e => !GoEq.eq k e.key))) i
    (((w.maps i).map (·.key)).filter (fun e => !GoEq.eq k e)) := by
  refine ⟨rfl, fun j hj => by simp [LiveWorld.put, hj], ?_⟩
  simp only [LiveWorld.put, if_true]
  rw [List.filter_map]
  rfl

theorem LPut.rel {w w' : LiveWorld K} {i : Nat} {l : List K} (h : LPut w w' i l) {st : BState K} (hr : BRel w.forget st) {S : K → Bool} (hl : Lists S l) :
    BRel w'.forget (st.change (some i) S) := by
  refine ⟨by simpa [LiveWorld.forget, h.next, BState.change] using hr.1, fun j => ?_⟩
  simp only [LiveWorld.forget, BState.change]
  by_cases hj : j = i
  · subst hj
    rw [if_pos rfl, h.keys]
    exact hl
  · rw [if_neg hj, h.others j hj]
    exact hr.2 j

/-- The world with a new map. -/
def LiveWorld.made (w : LiveWorld K) : LiveWorld K := { w.put w.next [] with next := w.next + 1 }

omit [GoEq K] in
theorem LiveWorld.Good.made_maps {w : LiveWorld K} (h : w.Good) : w.made.maps = w.maps := by
  have := w.put_same w.next
  rw [h.unmade w.next (Nat.le_refl _)] at this
  unfold LiveWorld.made
  rw [this]

omit [GoEq K] in
theorem LiveWorld.Good.made_entries {w : LiveWorld K} (h : w.Good) (r : MRef) : w.made.entries r = w.entries r := by
  cases r with
  | none => rfl
  | some i => exact congrFun h.made_maps i

theorem LPut.relNew {w w' : LiveWorld K} (hw : w.Good) {l : List K} (h : LPut w.made w' w.next l) {st : BState K} (hr : BRel w.forget st) {S : K → Bool} (hl : Lists S l) :
    BRel w'.forget (st.new S) := by
  have hn : w.next = st.next := hr.1
  refine ⟨by simp [LiveWorld.forget, h.next, LiveWorld.made, BState.new, hn], fun j => ?_⟩
  simp only [LiveWorld.forget, BState.new]
  by_cases hj : j = st.next
  · rw [← hn] at hj
    subst hj
    rw [if_pos hn, h.keys]
    exact hl
  · rw [if_neg hj, h.others j (by rw [hn]; exact hj), hw.made_maps]
    exact hr.2 j

section
variable [LawfulGoEq K]

theorem setAll_live (rt : LiveRt K) (i : Nat) (ks : List K) : ∀ w : LiveWorld K, w.Good → i < w.next →
    ∃ w', Live.setAll rt (some i) ks w = .ok () w' ∧ Grows w w' ∧ LPut w w' i (ks.foldl (assignKey rt.replace) ((w.maps i).map (·.key))) := by
  induction ks with
  | nil => intro w hw _; exact ⟨w, rfl, .refl hw, .refl w i⟩
  | cons k ks ih =>
    intro w hw hi
    have g := hw.assign rt.replace i hi k
    have p := LPut.assign rt.replace w i k
    obtain ⟨w', e, g', p'⟩ := ih (w.assign rt.replace i k) g.1.good (by rw [p.next]; exact hi)
    refine ⟨w', ?_, g.trans g', ?_⟩
    · simp only [Live.setAll, GoM.bind_def, Live.set, GoM.modify_apply, e]
    · have := p.trans p'
      rwa [p.keys] at this

theorem delAll_live (i : Nat) (ks : List K) : ∀ w : LiveWorld K, w.Good →
    ∃ w', Live.delAll (some i) ks w = .ok () w' ∧ Shrinks w w' ∧ LPut w w' i (ks.foldl (fun l k => l.filter (fun e => !GoEq.eq k e)) ((w.maps i).map (·.key))) := by
  induction ks with
  | nil => intro w hw; exact ⟨w, rfl, .refl hw, .refl w i⟩
  | cons k ks ih =>
    intro w hw
    have g := hw.delete i k
    have p := LPut.delete w i k
    obtain ⟨w', e, g', p'⟩ := ih _ g.1.good
    refine ⟨w', ?_, g.trans g', ?_⟩
    · simp only [Live.delAll, GoM.bind_def, Live.del, GoM.modify_apply, e]
    · have := p.trans p'
      rwa [p.keys] at this

omit [LawfulGoEq K] in
theorem delAll_live_nil (ks : List K) : ∀ w : LiveWorld K, Live.delAll none ks w = .ok () w := by
  induction ks with
  | nil => intro w; rfl
  | cons k ks ih => intro w; simp only [Live.delAll, GoM.bind_def, Live.del, GoM.pure_apply, ih]

omit [LawfulGoEq K] in
/-- Keys of different entries of a map differ. -/
theorem unique_key {E : List (Entry K)} (h : (E.map (·.key)).Pairwise (fun x y => GoEq.eq x y = false)) (hs : ∀ a b : K, GoEq.eq a b = GoEq.eq b a)
    {a b : Entry K} (ha : a ∈ E) (hb : b ∈ E) (hab : GoEq.eq a.key b.key = true) : a = b := by
  induction E with
  | nil => cases ha
  | cons e E ih =>
    simp only [List.map_cons, List.pairwise_cons, List.mem_map, forall_exists_index, and_imp, forall_apply_eq_imp_iff₂] at h
    rcases List.mem_cons.1 ha with ea | ha'
    · rcases List.mem_cons.1 hb with eb | hb'
      · rw [ea, eb]
      · rw [ea, h.1 b hb'] at hab; cases hab
    · rcases List.mem_cons.1 hb with eb | hb'
      · rw [eb, hs, h.1 a ha'] at hab; cases hab
      · exact ih h.2 ha' hb'

/-- Assigning a key that is there changes nothing. -/
theorem assign_own {w : LiveWorld K} (rep : Bool) {i : Nat} (hp : ((w.maps i).map (·.key)).Pairwise (fun x y => GoEq.eq x y = false)) {e : Entry K}
    (he : e ∈ w.maps i) : w.assign rep i e.key = w := by
  unfold LiveWorld.assign
  rw [if_pos (List.any_eq_true.2 ⟨e, he, LawfulGoEq.refl e.key⟩)]
  have : (w.maps i).map (fun x => if rep && GoEq.eq e.key x.key then { x with key := e.key } else x) = w.maps i := by
    refine Eq.trans (List.map_congr_left ?_) (List.map_id (w.maps i))
    intro x hx
    split
    · rename_i hr
      simp only [Bool.and_eq_true] at hr
      rw [← unique_key hp geq_symm he hx hr.2]
      rfl
    · rfl
  rw [this, LiveWorld.put_same]

/-- Loops that assign some of the keys to map `i`. -/
theorem addLoop (rt : LiveRt K) (extra : Nat) (s : MRef) (i : Nat) (p : K → Bool) (body : Unit → K → GoM (LiveWorld K) (Unit × Bool)) (w : LiveWorld K)
    (hw : w.Good) (hi : i < w.next) (hp : ((w.maps i).map (·.key)).Pairwise (fun x y => GoEq.eq x y = false))
    (hbody : ∀ (w' : LiveWorld K) (k : K), (∀ r, r ≠ some i → w'.entries r = w.entries r) →
      body () k w' = .ok ((), true) (if p k then w'.assign rt.replace i k else w')) :
    ∃ w', Live.range rt extra s body () w = .ok () w' ∧ Grows w w' ∧ ∃ ks : List K, ks.Perm ((w.entries s).map (·.key)) ∧
      LPut w w' i ((ks.filter p).foldl (assignKey rt.replace) ((w.maps i).map (·.key))) := by
  have hid : ((w.entries s).map (·.id)).Nodup := by
    cases s with
    | none => exact List.nodup_nil
    | some j => exact hw.ids j
  have hb : ∀ e ∈ w.entries s, e.id < w.ids := by
    cases s with
    | none => intro e he; cases he
    | some j => exact hw.below j
  obtain ⟨r, w', e, h⟩ := range_rule rt extra s body () w hid hb
    (fun d _ w' => Grows w w' ∧ LPut w w' i (((d.map Entry.key).filter p).foldl (assignKey rt.replace) ((w.maps i).map Entry.key)) ∧
      (s = some i → w'.maps i = w.maps i)) (fun _ _ => False)
    ⟨.refl hw, .refl w i, fun _ => rfl⟩
    (fun d t w' n h => ⟨h.1.steps n, h.2.1.steps n, h.2.2⟩)
    (by
      intro d t w' h e _
      by_cases hs : s = some i
      · subst hs
        rw [show w'.entries (some i) = w.entries (some i) from h.2.2 rfl]
      · rw [h.2.1.entries s hs])
    (by
      intro d t w' e h he _
      refine ⟨_, _, hbody w' e.key (fun r hr => h.2.1.entries r hr), ?_⟩
      simp only [if_true, List.map_append, List.map_cons, List.map_nil, List.filter_append, List.foldl_append]
      by_cases hk : p e.key = true
      · rw [if_pos hk, List.filter_cons, if_pos hk]
        have hpa := LPut.assign rt.replace w' i e.key
        rw [h.2.1.keys] at hpa
        refine ⟨h.1.trans (h.1.1.good.assign rt.replace i (by rw [h.2.1.next]; exact hi) e.key), h.2.1.trans hpa, fun hs => ?_⟩
        have hm := h.2.2 hs
        subst hs
        rw [assign_own rt.replace (by rw [hm]; exact hp) (by rw [hm]; exact he), hm]
      · rw [if_neg hk, List.filter_cons, if_neg hk]
        exact h)
  rcases h with ⟨d, hd, hI⟩ | hF
  · exact ⟨w', e, hI.1, d.map (·.key), hd.map _, hI.2.1⟩
  · exact hF.elim

/-- The loop of `Clear`. -/
theorem clearLoop (rt : LiveRt K) (extra : Nat) (i : Nat) (w : LiveWorld K) (hw : w.Good)
    (hp : ((w.maps i).map (·.key)).Pairwise (fun x y => GoEq.eq x y = false)) :
    ∃ w', Live.clear rt extra (some i) w = .ok () w' ∧ Shrinks w w' ∧ LPut w w' i [] := by
  obtain ⟨r, w', e, h⟩ := range_rule rt extra (some i) (fun _ k => do Live.del (some i) k; return ((), true)) () w (hw.ids i) (hw.below i)
    (fun d _ w' => Shrinks w w' ∧ (w'.next = w.next ∧ ∀ j, j ≠ i → w'.maps j = w.maps j) ∧ (∀ x ∈ d, x ∈ w.maps i) ∧
      w'.maps i = (w.maps i).filter (fun e => d.all (fun x => !GoEq.eq x.key e.key))) (fun _ _ => False)
    ⟨.refl hw, ⟨rfl, fun _ _ => rfl⟩, by simp, (List.filter_eq_self.2 (by simp)).symm⟩
    (fun d t w' n h => ⟨h.1.steps n, h.2⟩)
    (by
      intro d t w' h e hne
      simp only [LiveWorld.entries]
      rw [h.2.2.2, List.mem_filter]
      refine ⟨fun hm => hm.1, fun hm => ⟨hm, ?_⟩⟩
      rw [List.all_eq_true]
      intro x hx
      rcases Bool.eq_false_or_eq_true (GoEq.eq x.key e.key) with hk | hk
      · exact absurd (by rw [unique_key hp geq_symm (h.2.2.1 x hx) hm hk]) (hne x hx)
      · rw [hk]; rfl)
    (by
      intro d t w' e h he _
      refine ⟨((), true), w'.put i ((w'.maps i).filter (fun x => !GoEq.eq e.key x.key)), by simp only [Live.del, GoM.bind_def, GoM.modify_apply, GoM.pure_apply], ?_⟩
      simp only [if_true]
      have p := LPut.delete w' i e.key
      refine ⟨h.1.trans (h.1.1.good.delete i e.key), ⟨p.next.trans h.2.1.1, fun j hj => (p.others j hj).trans (h.2.1.2 j hj)⟩, ?_, ?_⟩
      · intro x hx
        rcases List.mem_append.1 hx with hx | hx
        · exact h.2.2.1 x hx
        · rw [List.mem_singleton] at hx
          rw [hx]; exact he
      · simp only [LiveWorld.put, if_true]
        rw [h.2.2.2, List.filter_filter]
        congr 1
        funext x
        simp [Bool.and_comm])
  rcases h with ⟨d, hd, hI⟩ | hF
  · refine ⟨w', e, hI.1, hI.2.1.1, hI.2.1.2, ?_⟩
    rw [hI.2.2.2, List.map_eq_nil_iff, List.filter_eq_nil_iff]
    intro x hx
    simp only [List.all_eq_true, Bool.not_eq_true']
    intro hall
    have := hall x (hd.mem_iff.2 hx)
    rw [LawfulGoEq.refl] at this
    cases this
  · exact hF.elim

omit [LawfulGoEq K] [GoEq K] in
/-- Loops that only look. -/
theorem lookLoop (rt : LiveRt K) (extra : Nat) (s : MRef) (body : σ → K → GoM (LiveWorld K) (σ × Bool)) (t : σ) (w : LiveWorld K) (hw : w.Good)
    (I : List K → σ → Prop) (J : σ → Prop) (h0 : I [] t)
    (hbody : ∀ n d t (e : Entry K), I d t → e ∈ w.entries s →
      ∃ r, body t e.key { w with steps := n } = .ok r { w with steps := n } ∧ if r.2 then I (d ++ [e.key]) r.1 else J r.1) :
    ∃ r n, Live.range rt extra s body t w = .ok r { w with steps := n } ∧ ((∃ d, d.Perm ((w.entries s).map (·.key)) ∧ I d r) ∨ J r) := by
  have hid : ((w.entries s).map (·.id)).Nodup := by
    cases s with
    | none => exact List.nodup_nil
    | some j => exact hw.ids j
  have hb : ∀ e ∈ w.entries s, e.id < w.ids := by
    cases s with
    | none => intro e he; cases he
    | some j => exact hw.below j
  obtain ⟨r, w', e, h⟩ := range_rule rt extra s body t w hid hb
    (fun d t w' => I (d.map (·.key)) t ∧ ∃ n, w' = { w with steps := n }) (fun t w' => J t ∧ ∃ n, w' = { w with steps := n })
    ⟨h0, w.steps, rfl⟩
    (by rintro d t w' n ⟨h1, m, rfl⟩; exact ⟨h1, n, rfl⟩)
    (by
      rintro d t w' ⟨h1, m, rfl⟩ e _
      cases s <;> rfl)
    (by
      rintro d t w' e ⟨h1, m, rfl⟩ he _
      obtain ⟨r, e1, h2⟩ := hbody m _ t e h1 he
      refine ⟨r, _, e1, ?_⟩
      by_cases hr : r.2 = true
      · rw [if_pos hr] at h2 ⊢
        rw [List.map_append]
        exact ⟨h2, m, rfl⟩
      · rw [if_neg hr] at h2 ⊢
        exact ⟨h2, m, rfl⟩)
  rcases h with ⟨d, hd, hI, n, rfl⟩ | ⟨hJ, n, rfl⟩
  · exact ⟨r, n, e, .inl ⟨_, hd.map _, hI⟩⟩
  · exact ⟨r, n, e, .inr hJ⟩

end

end Stl4go
