import Verif.Proofs.SkipListCursor
/-! # Iterators over sorted maps that change: order of the keys, entries that stay, number of steps -/
namespace Stl4go
variable {K V : Type} {less : K → K → Bool}

/-- The keys an iterator will show if the map stays as it is, up to the first one that is in the map. -/
def SCSpec.ahead (rem : List (K × V)) (c : SCur K) : List K := c.gone.filterMap (fun i => (rem[i]?).map (·.1)) ++ c.start.toList

structure CurOk (less : K → K → Bool) (m rem : List (K × V)) (c : SCur K) : Prop where
  idx : ∀ i ∈ c.gone, i < rem.length
  asc : (SCSpec.ahead rem c).Pairwise (fun a b => less a b = true)
  here : ∀ k, c.start = some k → ∃ v, (k, v) ∈ m

structure SOk (less : K → K → Bool) (s : SCSpec K V) : Prop where
  sorted : SMap.Sorted less s.map
  curs : ∀ c, CurOk less s.map s.removed (s.curs c)

theorem SSplit.at (hw : StrictWeak less) {m : List (K × V)} (hs : SMap.Sorted less m) {k : K} {v : V} (hk : (k, v) ∈ m) :
    ∃ G S, SSplit less k m G [(k, v)] S := by
  obtain ⟨G, H, S, sp⟩ := SSplit.exists hw k m hs
  have hk' := hk
  rw [sp.eq] at hk'
  simp only [List.mem_append] at hk'
  rcases hk' with h | h | h
  · have := sp.go _ h; simp [hw.irrefl] at this
  · rcases sp.cases with rfl | ⟨e, rfl⟩
    · simp at h
    · simp at h; subst h; exact ⟨G, S, sp⟩
  · have := sp.stop _ h; simp [hw.irrefl] at this

theorem CurOk.end_ (m rem : List (K × V)) (st : Option (SPlace K)) : CurOk less m rem { gone := [], start := none, stop := st } :=
  ⟨by simp, by simp [SCSpec.ahead], by simp⟩

theorem CurOk.fresh {m rem : List (K × V)} {o : Option K} (h : ∀ k, o = some k → ∃ v, (k, v) ∈ m) (st : Option (SPlace K)) :
    CurOk less m rem { gone := [], start := o, stop := st } := by
  refine ⟨by simp, ?_, h⟩
  cases o <;> simp [SCSpec.ahead]

theorem SMap.succ_mem {m : List (K × V)} {k k' : K} (h : SMap.succ less m k = some k') : (∃ v, (k', v) ∈ m) ∧ less k k' = true := by
  unfold SMap.succ at h
  cases hf : m.find? (fun e => less k e.1) with
  | none => rw [hf] at h; simp at h
  | some e =>
    rw [hf] at h; simp at h; subst h
    exact ⟨⟨e.2, List.mem_of_find?_eq_some hf⟩, by simpa using List.find?_some hf⟩

theorem SMap.first_mem {m : List (K × V)} {k k' : K} (h : SMap.first less m k = some k') : (∃ v, (k', v) ∈ m) ∧ less k' k = false := by
  unfold SMap.first at h
  cases hf : m.find? (fun e => !(less e.1 k)) with
  | none => rw [hf] at h; simp at h
  | some e =>
    rw [hf] at h; simp at h; subst h
    exact ⟨⟨e.2, List.mem_of_find?_eq_some hf⟩, by simpa using List.find?_some hf⟩

/-- The first key after `k` is not after any other key after `k`. -/
theorem SMap.succ_le (hw : StrictWeak less) {m : List (K × V)} (hs : SMap.Sorted less m) {k q : K} (hq : ∃ v, (q, v) ∈ m) (h : less k q = true) :
    ∃ k', SMap.succ less m k = some k' ∧ less q k' = false := by
  obtain ⟨G, H, S, sp⟩ := SSplit.exists hw k m hs
  obtain ⟨v, hv⟩ := hq
  have hv' := hv
  rw [sp.eq] at hv'
  simp only [List.mem_append] at hv'
  have hS : (q, v) ∈ S := by
    rcases hv' with h' | h' | h'
    · have := hw.asymm (sp.go _ h'); rw [h] at this; cases this
    · have := (sp.hit _ h').2; rw [h] at this; cases this
    · exact h'
  rw [SMap.succ_split hw sp]
  cases S with
  | nil => simp at hS
  | cons e S =>
    refine ⟨e.1, rfl, ?_⟩
    rcases List.mem_cons.1 hS with rfl | hS
    · exact hw.irrefl _
    · have : SMap.Sorted less (e :: S) := by
        rw [sp.eq] at hs
        exact (List.pairwise_append.1 (List.pairwise_append.1 hs).2.1).2.1
      exact hw.asymm ((List.pairwise_cons.1 this).1 _ hS)

theorem SMap.mem_insert (hw : StrictWeak less) {m : List (K × V)} (hs : SMap.Sorted less m) {k q : K} {v w : V} (h : (k, v) ∈ m) :
    ∃ v', (k, v') ∈ SMap.insert less q w m := by
  obtain ⟨G, H, S, sp⟩ := SSplit.exists hw q m hs
  rw [sp.eq] at h
  simp only [List.mem_append] at h
  rcases sp.cases with rfl | ⟨e, rfl⟩
  · rw [SMap.insert_miss hw sp]
    refine ⟨v, ?_⟩
    simp only [List.mem_append, List.mem_cons]
    rcases h with h | h | h
    · exact .inl h
    · simp at h
    · exact .inr (.inr h)
  · rw [SMap.insert_hit hw sp]
    simp only [List.mem_append, List.mem_cons]
    rcases h with h | h | h
    · exact ⟨v, .inl h⟩
    · simp at h; subst h; exact ⟨w, .inr (.inl rfl)⟩
    · exact ⟨v, .inr (.inr h)⟩

theorem filterMap_append_lt {α : Type} {β : Type} (rem X : List α) (f : α → β) : ∀ (g : List Nat), (∀ i ∈ g, i < rem.length) →
    g.filterMap (fun i => ((rem ++ X)[i]?).map f) = g.filterMap (fun i => (rem[i]?).map f) := by
  intro g
  induction g with
  | nil => intro _; rfl
  | cons i g ih =>
    intro hg
    rw [List.filterMap_cons, List.filterMap_cons, List.getElem?_append_left (hg i (by simp)), ih (fun j hj => hg j (by simp [hj]))]

/-- Indices of the last entries. -/
theorem filterMap_range' {α : Type} {β : Type} (f : α → β) (B : List α) : ∀ (A : List α),
    (List.range' A.length B.length).filterMap (fun i => ((A ++ B)[i]?).map f) = B.map f := by
  induction B with
  | nil => intro A; rfl
  | cons b B ih =>
    intro A
    simp only [List.length_cons, List.range'_succ]
    rw [List.filterMap_cons_some (b := f b) (by simp)]
    have := ih (A ++ [b])
    simp only [List.length_append, List.length_singleton, List.append_assoc, List.singleton_append] at this
    rw [this]; rfl

/-- An operation on the map adds keys at the end of those ahead, if it changes them. -/
theorem CurOk.map_step (hw : StrictWeak less) {m rem : List (K × V)} (hs : SMap.Sorted less m) {c : SCur K} (h : CurOk less m rem c) (op : SMOp K V) :
    let c' := c.after less m rem.length op
    let m' := (SMap.step less m op).2
    let rem' := rem ++ SMap.removes less m op
    CurOk less m' rem' c' ∧ ∃ ext, SCSpec.ahead rem' c' = SCSpec.ahead rem c ++ ext := by
  intro c' m' rem'
  have plain : (∀ k, op ≠ .remove k) → op ≠ .clear → (∀ k v, (k, v) ∈ m → ∃ v', (k, v') ∈ m') →
      CurOk less m' rem' c' ∧ ∃ ext, SCSpec.ahead rem' c' = SCSpec.ahead rem c ++ ext := by
    intro h1 h2 h3
    have e1 : c' = c := SCur.after_id h1 h2 c
    have e2 : rem' = rem := by
      show rem ++ _ = rem
      cases op <;> first | exact absurd rfl (h1 _) | exact absurd rfl h2 | simp [SMap.removes]
    rw [e1, e2]
    exact ⟨⟨h.idx, h.asc, fun k hk => let ⟨v, hv⟩ := h.here k hk; h3 k v hv⟩, [], by simp⟩
  cases op with
  | insert k v => exact plain (by simp) (by simp) (fun q x hq => SMap.mem_insert hw hs hq)
  | update k v =>
    refine plain (by simp) (by simp) (fun q x hq => ?_)
    simp only [m', SMap.step]
    split
    · exact SMap.mem_insert hw hs hq
    · exact ⟨x, hq⟩
  | find k => exact plain (by simp) (by simp) (fun q x hq => ⟨x, hq⟩)
  | has k => exact plain (by simp) (by simp) (fun q x hq => ⟨x, hq⟩)
  | len => exact plain (by simp) (by simp) (fun q x hq => ⟨x, hq⟩)
  | isEmpty => exact plain (by simp) (by simp) (fun q x hq => ⟨x, hq⟩)
  | iterate => exact plain (by simp) (by simp) (fun q x hq => ⟨x, hq⟩)
  | lowerBound k => exact plain (by simp) (by simp) (fun q x hq => ⟨x, hq⟩)
  | upperBound k => exact plain (by simp) (by simp) (fun q x hq => ⟨x, hq⟩)
  | remove k =>
    have hidx : ∀ i ∈ c.gone, i < rem'.length := fun i hi => by
      have := h.idx i hi; simp only [rem', List.length_append]; omega
    cases hst : c.start with
    | none =>
      have e1 : c'.gone = c.gone := by simp [c', SCur.after, hst]
      have e2 : c'.start = none := by simp [c', SCur.after, hst]
      have e3 : SCSpec.ahead rem' c' = SCSpec.ahead rem c := by
        simp only [SCSpec.ahead, e1, e2, hst]
        rw [filterMap_append_lt rem _ _ _ h.idx]
      exact ⟨⟨by rw [e1]; exact hidx, by rw [e3]; exact h.asc, by rw [e2]; simp⟩, [], by rw [e3]; simp⟩
    | some s =>
      obtain ⟨v, hv⟩ := h.here s hst
      obtain ⟨G, S, sp⟩ := SSplit.at hw hs hv
      by_cases hk : sameKey less k s = true
      · have e1 : c'.gone = c.gone ++ [rem.length] := by simp [c', SCur.after, hst, hk]
        have e2 : c'.start = S.head?.map (·.1) := by simp [c', SCur.after, hst, hk, SMap.succ_split hw sp]
        have hrm : SMap.removes less m (.remove k) = [(s, v)] := by
          rw [SMap.removes, ← SMap.same_split sp]
          apply List.filter_congr
          intro e he
          have h1 := sameKey_iff.1 hk
          rw [Bool.eq_iff_iff, sameKey_iff, sameKey_iff]
          constructor
          · intro h2
            exact ⟨hw.incomp _ _ _ h1.2 h1.1 h2.1 h2.2, hw.incomp _ _ _ h2.2 h2.1 h1.1 h1.2⟩
          · intro h2
            exact ⟨hw.incomp _ _ _ h1.1 h1.2 h2.1 h2.2, hw.incomp _ _ _ h2.2 h2.1 h1.2 h1.1⟩
        have e3 : SCSpec.ahead rem' c' = SCSpec.ahead rem c ++ (S.head?.map (·.1)).toList := by
          simp only [SCSpec.ahead, e1, e2, hst, rem', hrm, List.filterMap_append]
          rw [filterMap_append_lt rem _ _ _ h.idx]
          simp
        have hsucc : ∀ x ∈ (S.head?.map (·.1)).toList, less s x = true ∧ ∃ w, (x, w) ∈ S := by
          cases S with
          | nil => simp
          | cons e S => simp only [List.head?_cons, Option.map_some, Option.toList_some, List.mem_singleton]; rintro x rfl
                        exact ⟨sp.stop e (by simp), e.2, by simp⟩
        refine ⟨⟨?_, ?_, ?_⟩, _, e3⟩
        · intro i hi
          rw [e1] at hi
          simp only [List.mem_append, List.mem_singleton] at hi
          rcases hi with hi | rfl
          · exact hidx i hi
          · simp [rem', hrm]
        · rw [e3]
          have ha := h.asc
          rw [List.pairwise_append]
          refine ⟨ha, by cases S.head? <;> simp, ?_⟩
          intro a ha' b hb
          have hb' := (hsucc b hb).1
          simp only [SCSpec.ahead, hst, Option.toList_some] at ha ha'
          rw [List.mem_append, List.mem_singleton] at ha'
          rcases ha' with ha' | rfl
          · exact hw.trans _ _ _ ((List.pairwise_append.1 ha).2.2 a ha' s (by simp)) hb'
          · exact hb'
        · intro x hx
          rw [e2] at hx
          obtain ⟨hx1, w, hx2⟩ := hsucc x (by rw [hx]; simp)
          refine ⟨w, ?_⟩
          simp only [m', SMap.step, SMap.erase, List.mem_filter]
          refine ⟨by rw [sp.eq]; simp [hx2], ?_⟩
          simp only [Bool.or_eq_true]
          exact .inl (hw.lt_of_not_of_lt (sameKey_iff.1 hk).2 hx1)
      · have e1 : c'.gone = c.gone := by simp [c', SCur.after, hst, hk]
        have e2 : c'.start = some s := by simp [c', SCur.after, hst, hk]
        have e3 : SCSpec.ahead rem' c' = SCSpec.ahead rem c := by
          simp only [SCSpec.ahead, e1, e2, hst]
          rw [filterMap_append_lt rem _ _ _ h.idx]
        refine ⟨⟨by rw [e1]; exact hidx, by rw [e3]; exact h.asc, ?_⟩, [], by rw [e3]; simp⟩
        intro x hx
        rw [e2] at hx; injection hx with hx; subst hx
        refine ⟨v, ?_⟩
        simp only [m', SMap.step, SMap.erase, List.mem_filter]
        refine ⟨hv, ?_⟩
        simp only [sameKey_iff, not_and, Bool.not_eq_false] at hk
        cases hx : less k s with
        | true => simp
        | false => simp [hk hx]
  | clear =>
    have hidx : ∀ i ∈ c.gone, i < rem'.length := fun i hi => by
      have := h.idx i hi; simp only [rem', List.length_append]; omega
    cases hst : c.start with
    | none =>
      have e1 : c'.gone = c.gone := by simp [c', SCur.after, hst]
      have e2 : c'.start = none := by simp [c', SCur.after, hst]
      have e3 : SCSpec.ahead rem' c' = SCSpec.ahead rem c := by
        simp only [SCSpec.ahead, e1, e2, hst]
        rw [filterMap_append_lt rem _ _ _ h.idx]
      exact ⟨⟨by rw [e1]; exact hidx, by rw [e3]; exact h.asc, by rw [e2]; simp⟩, [], by rw [e3]; simp⟩
    | some s =>
      obtain ⟨v, hv⟩ := h.here s hst
      obtain ⟨G, S, sp⟩ := SSplit.at hw hs hv
      have hlen : m.length = G.length + (S.length + 1) := by rw [sp.eq]; simp
      have e1 : c'.gone = c.gone ++ List.range' (rem.length + G.length) (S.length + 1) := by
        simp only [c', SCur.after, hst, SMap.rank_split hw sp, hlen]
        congr 2; omega
      have e2 : c'.start = none := by simp [c', SCur.after, hst]
      have e3 : SCSpec.ahead rem' c' = SCSpec.ahead rem c ++ S.map (·.1) := by
        simp only [SCSpec.ahead, e1, e2, hst, rem', SMap.removes, List.filterMap_append]
        rw [filterMap_append_lt rem _ _ _ h.idx]
        have := filterMap_range' (fun e : K × V => e.1) ((s, v) :: S) (rem ++ G)
        rw [List.length_append] at this
        rw [sp.eq, ← List.append_assoc]
        simp only [List.singleton_append, List.length_cons] at this ⊢
        rw [this]
        simp
      have hall : ∀ x ∈ S.map (·.1), less s x = true := by
        intro x hx
        obtain ⟨e, he, rfl⟩ := List.mem_map.1 hx
        exact sp.stop e he
      have hSs : (S.map (·.1)).Pairwise (fun a b => less a b = true) := by
        have := hs
        unfold SMap.Sorted at this
        rw [sp.eq] at this
        exact List.pairwise_map.2 (List.pairwise_append.1 (List.pairwise_append.1 this).2.1).2.1
      refine ⟨⟨?_, ?_, by rw [e2]; simp⟩, _, e3⟩
      · intro i hi
        rw [e1] at hi
        simp only [List.mem_append, List.mem_range'_1] at hi
        rcases hi with hi | hi
        · exact hidx i hi
        · simp only [rem', SMap.removes, List.length_append, hlen]; omega
      · rw [e3, List.pairwise_append]
        refine ⟨h.asc, hSs, ?_⟩
        intro a ha' b hb
        have hb' := hall b hb
        have ha := h.asc
        simp only [SCSpec.ahead, hst, Option.toList_some] at ha ha'
        rw [List.mem_append, List.mem_singleton] at ha'
        rcases ha' with ha' | rfl
        · exact hw.trans _ _ _ ((List.pairwise_append.1 ha).2.2 a ha' s (by simp)) hb'
        · exact hb'

/-- The key an iterator is on is the first one ahead. -/
theorem CurOk.key (hw : StrictWeak less) {s : SCSpec K V} {c : SCur K} (hs : SMap.Sorted less s.map) (h : CurOk less s.map s.removed c) :
    (c.place.bind (s.entry less)).map (·.1) = (SCSpec.ahead s.removed c).head? := by
  unfold SCur.place
  cases hg : c.gone with
  | nil =>
    cases hst : c.start with
    | none => simp [SCSpec.ahead, hg, hst]
    | some k =>
      obtain ⟨v, hv⟩ := h.here k hst
      obtain ⟨G, S, sp⟩ := SSplit.at hw hs hv
      simp [SCSpec.ahead, hg, hst, SCSpec.entry, SMap.find_same_split sp]
  | cons i g =>
    have hi := h.idx i (by simp [hg])
    simp [SCSpec.ahead, hg, SCSpec.entry, List.getElem?_eq_getElem hi]

/-- Moving on. -/
theorem CurOk.next {m rem : List (K × V)} {c d : SCur K} (h : CurOk less m rem c)
    (hd : c.next less m = some d) :
    CurOk less m rem d ∧ ∃ k, (SCSpec.ahead rem c).head? = some k ∧ ∀ x ∈ SCSpec.ahead rem d, less k x = true := by
  unfold SCur.next at hd
  cases hg : c.gone with
  | nil =>
    cases hst : c.start with
    | none => simp [hg, hst] at hd
    | some k =>
      simp [hg, hst] at hd
      subst hd
      refine ⟨⟨by simp, ?_, fun x hx => (SMap.succ_mem hx).1⟩, k, by simp [SCSpec.ahead, hg, hst], ?_⟩
      · simp only [SCSpec.ahead]
        cases SMap.succ less m k <;> simp
      · simp only [SCSpec.ahead]
        cases hx : SMap.succ less m k with
        | none => simp
        | some x => simp [(SMap.succ_mem hx).2]
  | cons i g =>
    simp [hg] at hd
    subst hd
    have hi := h.idx i (by simp [hg])
    have ha := h.asc
    have e : SCSpec.ahead rem c = (rem[i]).1 :: SCSpec.ahead rem { c with gone := g } := by
      simp [SCSpec.ahead, hg, List.getElem?_eq_getElem hi]
    rw [e, List.pairwise_cons] at ha
    exact ⟨⟨fun j hj => h.idx j (by simp [hg, hj]), ha.2, h.here⟩, _, by rw [e]; rfl, ha.1⟩

theorem SOk.init : SOk less (SCSpec.init : SCSpec K V) := ⟨List.Pairwise.nil, fun _ => CurOk.end_ _ _ _⟩

theorem SOk.put {s : SCSpec K V} (h : SOk less s) (c : Nat) {d : SCur K} (hd : CurOk less s.map s.removed d) : SOk less (s.put c d) := by
  refine ⟨h.sorted, fun x => ?_⟩
  simp only [SCSpec.put]
  by_cases hx : x = c
  · simp only [hx, if_true]; exact hd
  · simp only [hx, if_false]; exact h.curs x

theorem map_keys_assign {m : List (K × V)} {k : K} {v : V} :
    (m.map (fun e => if sameKey less k e.1 then (e.1, v) else e)).map (·.1) = m.map (·.1) := by
  rw [List.map_map]
  apply List.map_congr_left
  intro e _
  simp only [Function.comp]
  split <;> rfl

/-- A write through a pointer changes no key. -/
theorem SCSpec.assign_keys (s : SCSpec K V) (v : V) (d : SPlace K) :
    (s.assign less v d).map.map (·.1) = s.map.map (·.1) ∧
    (∀ i : Nat, ((s.assign less v d).removed[i]?).map (·.1) = (s.removed[i]?).map (·.1)) ∧ (s.assign less v d).curs = s.curs := by
  cases d with
  | live k => exact ⟨map_keys_assign, fun _ => rfl, rfl⟩
  | dead i =>
    refine ⟨rfl, fun j => ?_, rfl⟩
    simp only [SCSpec.assign, List.getElem?_modify]
    cases s.removed[j]? with
    | none => rfl
    | some e => simp only [Option.map_eq_map, Option.map_some]; split <;> rfl

theorem CurOk.congr {m m' rem rem' : List (K × V)} {c : SCur K} (h : CurOk less m rem c) (hm : m'.map (·.1) = m.map (·.1))
    (hr : ∀ i : Nat, (rem'[i]?).map (·.1) = (rem[i]?).map (·.1)) : CurOk less m' rem' c ∧ SCSpec.ahead rem' c = SCSpec.ahead rem c := by
  have ea : SCSpec.ahead rem' c = SCSpec.ahead rem c := by
    simp only [SCSpec.ahead]
    congr 2
    exact funext hr
  refine ⟨⟨fun i hi => ?_, by rw [ea]; exact h.asc, fun k hk => ?_⟩, ea⟩
  · have h1 := h.idx i hi
    have h2 := hr i
    rw [List.getElem?_eq_getElem h1] at h2
    cases h3 : rem'[i]? with
    | none => rw [h3] at h2; simp at h2
    | some e => exact (List.getElem?_eq_some_iff.1 h3).1
  · obtain ⟨v, hv⟩ := h.here k hk
    have : k ∈ m'.map (·.1) := by rw [hm]; exact List.mem_map.2 ⟨(k, v), hv, rfl⟩
    obtain ⟨e, he, rfl⟩ := List.mem_map.1 this
    exact ⟨e.2, he⟩

theorem SMap.sorted_congr {m m' : List (K × V)} (hm : m'.map (·.1) = m.map (·.1)) (hs : SMap.Sorted less m) : SMap.Sorted less m' := by
  have h1 : (m.map (·.1)).Pairwise (fun a b => less a b = true) := List.pairwise_map.2 hs
  rw [← hm] at h1
  exact List.pairwise_map.1 h1

/-- One step, and what it does to an iterator it does not assign. -/
theorem SOk.step (hw : StrictWeak less) {s : SCSpec K V} (h : SOk less s) (op : SCOp K V) :
    SOk less (s.step less op).2 ∧
    ∀ c, op.setsCur c = false →
      (∃ ext, SCSpec.ahead (s.step less op).2.removed ((s.step less op).2.curs c) = SCSpec.ahead s.removed (s.curs c) ++ ext ∧
        (ext = [] ∨ SCSpec.ahead s.removed (s.curs c) ≠ []) ∧ (op = .next c → SCSpec.ahead s.removed (s.curs c) = [])) ∨
      (op = .next c ∧ ∃ k, (SCSpec.ahead s.removed (s.curs c)).head? = some k ∧
        ∀ x ∈ SCSpec.ahead (s.step less op).2.removed ((s.step less op).2.curs c), less k x = true) := by
  have same : ∀ s', (s.step less op).2 = s' → SOk less s' → (∀ c, op ≠ .next c) →
      (∀ c, op.setsCur c = false → SCSpec.ahead s'.removed (s'.curs c) = SCSpec.ahead s.removed (s.curs c)) →
      SOk less (s.step less op).2 ∧
      ∀ c, op.setsCur c = false →
      (∃ ext, SCSpec.ahead (s.step less op).2.removed ((s.step less op).2.curs c) = SCSpec.ahead s.removed (s.curs c) ++ ext ∧
        (ext = [] ∨ SCSpec.ahead s.removed (s.curs c) ≠ []) ∧ (op = .next c → SCSpec.ahead s.removed (s.curs c) = [])) ∨
      (op = .next c ∧ ∃ k, (SCSpec.ahead s.removed (s.curs c)).head? = some k ∧
        ∀ x ∈ SCSpec.ahead (s.step less op).2.removed ((s.step less op).2.curs c), less k x = true) := by
    intro s' e h1 hn h2
    rw [e]
    exact ⟨h1, fun c hc => .inl ⟨[], by rw [h2 c hc]; simp, .inl rfl, fun e => absurd e (hn c)⟩⟩
  have put : ∀ (c : Nat) (d : SCur K), (s.step less op).2 = s.put c d → CurOk less s.map s.removed d → (∀ c, op ≠ .next c) →
      (∀ x, op.setsCur x = false → x ≠ c) →
      SOk less (s.step less op).2 ∧
      ∀ c, op.setsCur c = false →
      (∃ ext, SCSpec.ahead (s.step less op).2.removed ((s.step less op).2.curs c) = SCSpec.ahead s.removed (s.curs c) ++ ext ∧
        (ext = [] ∨ SCSpec.ahead s.removed (s.curs c) ≠ []) ∧ (op = .next c → SCSpec.ahead s.removed (s.curs c) = [])) ∨
      (op = .next c ∧ ∃ k, (SCSpec.ahead s.removed (s.curs c)).head? = some k ∧
        ∀ x ∈ SCSpec.ahead (s.step less op).2.removed ((s.step less op).2.curs c), less k x = true) := by
    intro c d e h1 hn h2
    exact same _ e (h.put c h1) hn (fun x hx => by simp [SCSpec.put, h2 x hx])
  have plain : (s.step less op).2 = s ∨ (∃ p d, (s.step less op).2 = s.point p d) → (∀ c, op ≠ .next c) →
      SOk less (s.step less op).2 ∧
      ∀ c, op.setsCur c = false →
      (∃ ext, SCSpec.ahead (s.step less op).2.removed ((s.step less op).2.curs c) = SCSpec.ahead s.removed (s.curs c) ++ ext ∧
        (ext = [] ∨ SCSpec.ahead s.removed (s.curs c) ≠ []) ∧ (op = .next c → SCSpec.ahead s.removed (s.curs c) = [])) ∨
      (op = .next c ∧ ∃ k, (SCSpec.ahead s.removed (s.curs c)).head? = some k ∧
        ∀ x ∈ SCSpec.ahead (s.step less op).2.removed ((s.step less op).2.curs c), less k x = true) := by
    rintro (e | ⟨p, d, e⟩) hn
    · exact same _ e h hn (fun _ _ => rfl)
    · exact same _ e ⟨h.sorted, h.curs⟩ hn (fun _ _ => rfl)
  cases op with
  | map r op =>
    refine ⟨⟨SMap.sorted_step hw h.sorted op, fun c => ((h.curs c).map_step hw h.sorted op).1⟩, fun c _ => .inl ?_⟩
    obtain ⟨hc, ext, he⟩ := (h.curs c).map_step hw h.sorted op
    refine ⟨ext, he, ?_, by simp⟩
    cases hx : SCSpec.ahead s.removed (s.curs c) with
    | cons => exact .inr (by simp)
    | nil =>
      left
      have hg : (s.curs c).gone = [] := by
        cases hg : (s.curs c).gone with
        | nil => rfl
        | cons i g => simp [SCSpec.ahead, hg, List.getElem?_eq_getElem ((h.curs c).idx i (by simp [hg]))] at hx
      have hst : (s.curs c).start = none := by
        cases hst : (s.curs c).start with
        | none => rfl
        | some k => simp [SCSpec.ahead, hst] at hx
      rw [hx] at he
      simpa [SCSpec.ahead, SCur.after, hg, hst] using he.symm
  | iterate c =>
    refine put c _ rfl (CurOk.fresh (fun k hk => ?_) _) (by simp) (fun x hx => by simpa [SCOp.setsCur, eq_comm] using hx)
    cases hm : s.map with
    | nil => rw [hm] at hk; simp at hk
    | cons e m => rw [hm] at hk; simp at hk; subst hk; exact ⟨e.2, by simp⟩
  | lowerBound c k =>
    exact put c _ rfl (CurOk.fresh (fun k hk => (SMap.first_mem hk).1) _) (by simp) (fun x hx => by simpa [SCOp.setsCur, eq_comm] using hx)
  | upperBound c k =>
    exact put c _ rfl (CurOk.fresh (fun k hk => (SMap.succ_mem hk).1) _) (by simp) (fun x hx => by simpa [SCOp.setsCur, eq_comm] using hx)
  | findRange c a b =>
    exact put c _ rfl (CurOk.fresh (fun k hk => (SMap.first_mem hk).1) _) (by simp) (fun x hx => by simpa [SCOp.setsCur, eq_comm] using hx)
  | isNotEnd c => exact plain (.inl rfl) (by simp)
  | key c => exact plain (.inl (by simp only [SCSpec.step]; split <;> rfl)) (by simp)
  | value c => exact plain (.inl (by simp only [SCSpec.step]; split <;> rfl)) (by simp)
  | read c => exact plain (.inl (by simp only [SCSpec.step]; split <;> rfl)) (by simp)
  | find p k => exact plain (.inr ⟨_, _, rfl⟩) (by simp)
  | pointer p c =>
    refine plain ?_ (by simp)
    simp only [SCSpec.step]
    split
    · exact .inr ⟨_, _, rfl⟩
    · exact .inl rfl
  | write p v =>
    cases hp : s.ptrs p with
    | none => exact plain (.inl (by simp [SCSpec.step, hp])) (by simp)
    | some d =>
      obtain ⟨a1, a2, a3⟩ := s.assign_keys (less := less) v d
      refine same (s.assign less v d) (by simp [SCSpec.step, hp]) ⟨SMap.sorted_congr a1 h.sorted, fun c => ?_⟩ (by simp) (fun c _ => ?_)
      · rw [a3]; exact ((h.curs c).congr a1 a2).1
      · rw [a3]; exact ((h.curs c).congr a1 a2).2
  | next c =>
    cases hd : (s.curs c).next less s.map with
    | none =>
      have e : (s.step less (.next c)).2 = s := by simp [SCSpec.step, hd]
      rw [e]
      refine ⟨h, fun x _ => .inl ⟨[], by simp, .inl rfl, ?_⟩⟩
      intro ex
      injection ex with ex; subst ex
      unfold SCur.next at hd
      cases hg : (s.curs c).gone with
      | cons => simp [hg] at hd
      | nil => cases hst : (s.curs c).start with
        | some => simp [hg, hst] at hd
        | none => simp [SCSpec.ahead, hg, hst]
    | some d =>
      have e : (s.step less (.next c)).2 = s.put c d := by simp [SCSpec.step, hd]
      rw [e]
      obtain ⟨b1, k, b2, b3⟩ := (h.curs c).next hd
      refine ⟨h.put c b1, fun x _ => ?_⟩
      by_cases hx : x = c
      · subst hx
        exact .inr ⟨rfl, k, b2, by simpa [SCSpec.put] using b3⟩
      · refine .inl ⟨[], by simp [SCSpec.put, hx], .inl rfl, fun ex => ?_⟩
        injection ex with ex; exact absurd ex.symm hx

theorem SCOp.moves_iff {c : Nat} {op : SCOp K V} : op.moves c = true ↔ op = .next c := by
  cases op <;> simp [SCOp.moves]

/-- Along a history. -/
theorem SOk.run (hw : StrictWeak less) (c : Nat) (ops : List (SCOp K V)) : ∀ {s : SCSpec K V}, SOk less s →
    SOk less (s.run less ops).2 ∧ ((∀ op ∈ ops, op.setsCur c = false) →
    (SCSpec.ahead s.removed (s.curs c) = [] → SCSpec.ahead (s.run less ops).2.removed ((s.run less ops).2.curs c) = []) ∧
    (ops.any (SCOp.moves c) = false → (SCSpec.ahead (s.run less ops).2.removed ((s.run less ops).2.curs c)).head? =
      (SCSpec.ahead s.removed (s.curs c)).head?) ∧
    (ops.any (SCOp.moves c) = true → ∀ k, (SCSpec.ahead s.removed (s.curs c)).head? = some k →
      ∀ x, (SCSpec.ahead (s.run less ops).2.removed ((s.run less ops).2.curs c)).head? = some x → less k x = true)) := by
  induction ops with
  | nil => intro s h; exact ⟨h, fun _ => ⟨id, fun _ => rfl, by simp⟩⟩
  | cons op ops ih =>
    intro s h
    obtain ⟨h1, h2⟩ := h.step hw op
    obtain ⟨g0, g⟩ := ih h1
    refine ⟨g0, fun hc => ?_⟩
    obtain ⟨g1, g2, g3⟩ := g (fun o ho => hc o (by simp [ho]))
    simp only [SCSpec.run]
    rcases h2 c (hc op (by simp)) with ⟨ext, e1, e2, e3⟩ | ⟨hop, k, e1, e2⟩
    · refine ⟨fun he => g1 ?_, fun hm => ?_, fun hm k hk x hx => ?_⟩
      · rw [e1, he]
        rcases e2 with rfl | e2
        · rfl
        · exact absurd he e2
      · simp only [List.any_cons, Bool.or_eq_false_iff] at hm
        rw [g2 hm.2, e1]
        rcases e2 with rfl | e2
        · simp
        · cases hx : SCSpec.ahead s.removed (s.curs c) with
          | nil => exact absurd hx e2
          | cons a l => rfl
      · have hne : op ≠ .next c := fun e => by rw [e3 e] at hk; simp at hk
        have hm' : ops.any (SCOp.moves c) = true := by
          simp only [List.any_cons, Bool.or_eq_true] at hm
          rcases hm with hm | hm
          · exact absurd (SCOp.moves_iff.1 hm) hne
          · exact hm
        refine g3 hm' k ?_ x hx
        rw [e1]
        cases hx : SCSpec.ahead s.removed (s.curs c) with
        | nil => rw [hx] at hk; simp at hk
        | cons a l => rw [hx] at hk; simpa using hk
    · refine ⟨fun he => ?_, fun hm => ?_, fun _ k' hk x hx => ?_⟩
      · rw [he] at e1; simp at e1
      · simp [SCOp.moves_iff.2 hop] at hm
      · rw [e1] at hk; injection hk with hk; subst hk
        cases h3 : SCSpec.ahead (s.step less op).2.removed ((s.step less op).2.curs c) with
        | nil => rw [g1 h3] at hx; simp at hx
        | cons a l =>
          have ha := e2 a (by rw [h3]; simp)
          cases hm : ops.any (SCOp.moves c) with
          | true => exact hw.trans _ _ _ ha (g3 hm a (by rw [h3]; rfl) x hx)
          | false =>
            have := g2 hm
            rw [hx, h3] at this
            simp at this
            rw [this]; exact ha

/-- What is ahead stays ahead until the iterator moves. -/
theorem SOk.run_prefix (hw : StrictWeak less) (c : Nat) (ops : List (SCOp K V)) (hc : ∀ op ∈ ops, op.setsCur c = false ∧ op.moves c = false) :
    ∀ {s : SCSpec K V}, SOk less s →
    ∃ ext, SCSpec.ahead (s.run less ops).2.removed ((s.run less ops).2.curs c) = SCSpec.ahead s.removed (s.curs c) ++ ext := by
  induction ops with
  | nil => intro s h; exact ⟨[], by simp [SCSpec.run]⟩
  | cons op ops ih =>
    intro s h
    obtain ⟨h1, h2⟩ := h.step hw op
    obtain ⟨ext, e⟩ := ih (fun o ho => hc o (by simp [ho])) h1
    rcases h2 c (hc op (by simp)).1 with ⟨ext', e1, _⟩ | ⟨hop, _⟩
    · exact ⟨ext' ++ ext, by simp only [SCSpec.run]; rw [e, e1, List.append_assoc]⟩
    · have := (hc op (by simp)).2
      rw [SCOp.moves_iff.2 hop] at this; cases this

/-- One step with two keys ahead. -/
theorem SOk.next_second (_ : StrictWeak less) {s : SCSpec K V} (h : SOk less s) (c : Nat) {a b : K} {l : List K}
    (ha : SCSpec.ahead s.removed (s.curs c) = a :: b :: l) :
    SCSpec.ahead (s.step less (.next c)).2.removed ((s.step less (.next c)).2.curs c) = b :: l := by
  cases hg : (s.curs c).gone with
  | nil =>
    cases hst : (s.curs c).start with
    | none => simp [SCSpec.ahead, hg, hst] at ha
    | some k => simp [SCSpec.ahead, hg, hst] at ha
  | cons i g =>
    have hi := (h.curs c).idx i (by simp [hg])
    have e : SCSpec.ahead s.removed (s.curs c) = (s.removed[i]).1 :: SCSpec.ahead s.removed { s.curs c with gone := g } := by
      simp [SCSpec.ahead, hg, List.getElem?_eq_getElem hi]
    rw [e] at ha
    simp only [SCSpec.step, SCur.next, hg, SCSpec.put, if_true]
    exact (List.cons.inj ha).2

/-! ## Entries that stay are not skipped -/

/-- `q` is ahead of the iterator: the part of the map it will go through begins at `q` or before. -/
def SCur.Before (less : K → K → Bool) (c : SCur K) (q : K) : Prop := ∃ st, c.start = some st ∧ less q st = false

theorem SCur.Before.succ (hw : StrictWeak less) {m : List (K × V)} (hs : SMap.Sorted less m) {st q : K} (hq : ∃ q' v, (q', v) ∈ m ∧ sameKey less q q' = true)
    (h : less q st = false) (hn : sameKey less q st = false) : ∃ k', SMap.succ less m st = some k' ∧ less q k' = false := by
  obtain ⟨q', v, hm, hqq⟩ := hq
  have h1 : less st q = true := by
    cases hx : less st q with
    | true => rfl
    | false => rw [sameKey_iff.2 ⟨h, hx⟩] at hn; cases hn
  have h2 := sameKey_iff.1 hqq
  obtain ⟨k', a1, a2⟩ := SMap.succ_le hw hs ⟨v, hm⟩ (hw.lt_of_lt_of_not h1 h2.2)
  refine ⟨k', a1, ?_⟩
  cases hx : less q k' with
  | false => rfl
  | true => have := hw.lt_of_not_of_lt h2.1 hx; rw [this] at a2; cases a2

theorem sameKey_find {m : List (K × V)} (hw : StrictWeak less) (hs : SMap.Sorted less m) {q : K} (h : (SMap.find less q m).isSome = true) :
    ∃ q' v, (q', v) ∈ m ∧ sameKey less q q' = true := by
  obtain ⟨G, H, S, sp⟩ := SSplit.exists hw q m hs
  rw [SMap.find_split sp] at h
  rcases sp.cases with rfl | ⟨e, rfl⟩
  · simp at h
  · exact ⟨e.1, e.2, by rw [sp.eq]; simp, sameKey_hit sp (by simp)⟩

/-- One step: if `q` is in the map before and after, the iterator is not on it, and `q` is ahead, it still is. -/
theorem SOk.before_step (hw : StrictWeak less) {s : SCSpec K V} (h : SOk less s) (op : SCOp K V) (c : Nat) (hc : op.setsCur c = false) {q : K}
    (hq : (SMap.find less q s.map).isSome = true) (hq' : (SMap.find less q (s.step less op).2.map).isSome = true)
    (hb : (s.curs c).Before less q) (hn : op = .next c → ∀ k, (SCSpec.ahead s.removed (s.curs c)).head? = some k → sameKey less q k = false) :
    ((s.step less op).2.curs c).Before less q := by
  obtain ⟨st, hst, hlt⟩ := hb
  have hin := sameKey_find hw h.sorted hq
  have keep : (s.step less op).2.curs c = s.curs c → ((s.step less op).2.curs c).Before less q := fun e => by
    rw [e]; exact ⟨st, hst, hlt⟩
  cases op with
  | map r op =>
    have e : (s.step less (.map r op)).2.curs c = (s.curs c).after less s.map s.removed.length op := rfl
    rw [e]
    by_cases h1 : ∃ k, op = .remove k
    · obtain ⟨k, rfl⟩ := h1
      by_cases hk : sameKey less k st = true
      · have hns : sameKey less q st = false := by
          cases hx : sameKey less q st with
          | false => rfl
          | true =>
            exfalso
            have hs' : SMap.Sorted less (SMap.erase less k s.map) := SMap.sorted_erase h.sorted k
            obtain ⟨q', v, hm, hqq⟩ := sameKey_find hw hs' hq'
            have hm := (List.mem_filter.1 hm).2
            have a1 := sameKey_iff.1 hk
            have a2 := sameKey_iff.1 hx
            have a3 := sameKey_iff.1 hqq
            have b1 := hw.incomp _ _ _ a1.1 a1.2 a2.2 a2.1
            have b2 := hw.incomp _ _ _ a2.1 a2.2 a1.2 a1.1
            have b3 := hw.incomp _ _ _ b1 b2 a3.1 a3.2
            have b4 := hw.incomp _ _ _ a3.2 a3.1 b2 b1
            simp [b3, b4] at hm
        obtain ⟨k', a1, a2⟩ := SCur.Before.succ hw h.sorted hin hlt hns
        exact ⟨k', by simp [SCur.after, hst, hk, a1], a2⟩
      · exact ⟨st, by simp [SCur.after, hst, hk], hlt⟩
    · by_cases h2 : op = .clear
      · subst h2
        simp [SCSpec.step, SMap.step, SMap.find] at hq'
      · rw [SCur.after_id (fun k hk => h1 ⟨k, hk⟩) h2]
        exact ⟨st, hst, hlt⟩
  | iterate x => exact keep (by have : ¬ c = x := by simpa [SCOp.setsCur, eq_comm] using hc
                                simp [SCSpec.step, SCSpec.put, this])
  | lowerBound x k => exact keep (by have : ¬ c = x := by simpa [SCOp.setsCur, eq_comm] using hc
                                     simp [SCSpec.step, SCSpec.put, this])
  | upperBound x k => exact keep (by have : ¬ c = x := by simpa [SCOp.setsCur, eq_comm] using hc
                                     simp [SCSpec.step, SCSpec.put, this])
  | findRange x a b => exact keep (by have : ¬ c = x := by simpa [SCOp.setsCur, eq_comm] using hc
                                      simp [SCSpec.step, SCSpec.put, this])
  | isNotEnd x => exact keep rfl
  | key x => exact keep (by simp only [SCSpec.step]; split <;> rfl)
  | value x => exact keep (by simp only [SCSpec.step]; split <;> rfl)
  | read x => exact keep (by simp only [SCSpec.step]; split <;> rfl)
  | find p k => exact keep rfl
  | pointer p x => exact keep (by simp only [SCSpec.step]; split <;> rfl)
  | write p v =>
    refine keep ?_
    simp only [SCSpec.step]
    cases s.ptrs p with
    | none => rfl
    | some d => rw [(s.assign_keys (less := less) v d).2.2]
  | next x =>
    simp only [SCSpec.step]
    cases hd : (s.curs x).next less s.map with
    | none => exact ⟨st, hst, hlt⟩
    | some d =>
      by_cases hx : c = x
      · subst hx
        simp only [SCSpec.put, if_true]
        unfold SCur.next at hd
        cases hg : (s.curs c).gone with
        | cons i g =>
          simp [hg] at hd
          subst hd
          exact ⟨st, hst, hlt⟩
        | nil =>
          simp [hg, hst] at hd
          subst hd
          have hns := hn rfl st (by simp [SCSpec.ahead, hg, hst])
          obtain ⟨k', a1, a2⟩ := SCur.Before.succ hw h.sorted hin hlt hns
          exact ⟨k', a1, a2⟩
      · refine ⟨st, ?_, hlt⟩
        simp [SCSpec.put, hx, hst]

/-- What is ahead has its first key not after `q`. -/
theorem CurOk.before_head (hw : StrictWeak less) {m rem : List (K × V)} {c : SCur K} (h : CurOk less m rem c) {q : K} (hb : c.Before less q) :
    ∃ k, (SCSpec.ahead rem c).head? = some k ∧ less q k = false := by
  obtain ⟨st, hst, hlt⟩ := hb
  have ha := h.asc
  cases hx : SCSpec.ahead rem c with
  | nil => simp [SCSpec.ahead, hst] at hx
  | cons a l =>
    refine ⟨a, rfl, ?_⟩
    have hmem : st ∈ a :: l := by rw [← hx]; simp [SCSpec.ahead, hst]
    rw [hx] at ha
    rcases List.mem_cons.1 hmem with rfl | hm
    · exact hlt
    · have := (List.pairwise_cons.1 ha).1 st hm
      cases hy : less q a with
      | false => rfl
      | true => have := hw.trans _ _ _ hy this; rw [this] at hlt; cases hlt

/-- Along a history: either the iterator was on `q` at some moment, or `q` is still ahead. -/
theorem SOk.before_run (hw : StrictWeak less) (c : Nat) {q : K} (ops : List (SCOp K V)) (hc : ∀ op ∈ ops, op.setsCur c = false) :
    ∀ {s : SCSpec K V}, SOk less s → (∀ pre, pre <+: ops → (SMap.find less q (s.run less pre).2.map).isSome = true) →
    (s.curs c).Before less q →
    (∃ pre k, pre <+: ops ∧ (SCSpec.ahead (s.run less pre).2.removed ((s.run less pre).2.curs c)).head? = some k ∧ sameKey less q k = true) ∨
    ((s.run less ops).2.curs c).Before less q := by
  induction ops with
  | nil => intro s h _ hb; exact .inr hb
  | cons op ops ih =>
    intro s h hq hb
    by_cases hon : ∃ k, (SCSpec.ahead s.removed (s.curs c)).head? = some k ∧ sameKey less q k = true
    · obtain ⟨k, h1, h2⟩ := hon
      exact .inl ⟨[], k, List.nil_prefix, h1, h2⟩
    · have hb' := h.before_step hw op c (hc op (by simp)) (hq [] List.nil_prefix)
        (hq [op] (by simp)) hb (fun _ k hk => by
          cases hx : sameKey less q k with
          | false => rfl
          | true => exact absurd ⟨k, hk, hx⟩ hon)
      rcases ih (fun o ho => hc o (by simp [ho])) (h.step hw op).1
          (fun pre hp => hq (op :: pre) (by rwa [List.cons_prefix_cons, and_iff_right rfl])) hb' with ⟨pre, k, a1, a2, a3⟩ | hb''
      · exact .inl ⟨op :: pre, k, by rwa [List.cons_prefix_cons, and_iff_right rfl], a2, a3⟩
      · exact .inr hb''

/-- The first key not before `k` is not after any other such key. -/
theorem SMap.first_le (hw : StrictWeak less) {m : List (K × V)} (hs : SMap.Sorted less m) {k q : K} (hq : ∃ v, (q, v) ∈ m) (h : less q k = false) :
    ∃ k', SMap.first less m k = some k' ∧ less q k' = false := by
  obtain ⟨v, hv⟩ := hq
  have hv' : (q, v) ∈ m.filter (fun e => !(less e.1 k)) := List.mem_filter.2 ⟨hv, by simp [h]⟩
  have hs' : SMap.Sorted less (m.filter (fun e => !(less e.1 k))) := List.Pairwise.filter _ hs
  unfold SMap.first
  rw [← List.head?_filter]
  cases hx : m.filter (fun e => !(less e.1 k)) with
  | nil => rw [hx] at hv'; simp at hv'
  | cons e l =>
    refine ⟨e.1, rfl, ?_⟩
    rw [hx] at hv' hs'
    rcases List.mem_cons.1 hv' with rfl | hm
    · exact hw.irrefl _
    · exact hw.asymm ((List.pairwise_cons.1 hs').1 _ hm)

/-- What is not after the equivalent key is not after the key. -/
theorem sameKey_le (hw : StrictWeak less) {q q' k : K} (h : sameKey less q q' = true) (hk : less q' k = false) : less q k = false := by
  cases hx : less q k with
  | false => rfl
  | true => have := hw.lt_of_not_of_lt (sameKey_iff.1 h).1 hx; rw [this] at hk; cases hk

/-- A new iterator that starts at `q` or before. -/
theorem SOk.before_new (hw : StrictWeak less) {s : SCSpec K V} (h : SOk less s) {op : SCOp K V} {c : Nat} {q : K}
    (hop : op.startsBefore less c q = true) (hq : (SMap.find less q s.map).isSome = true) :
    ((s.step less op).2.curs c).Before less q := by
  obtain ⟨q', v, hm, hqq⟩ := sameKey_find hw h.sorted hq
  have hq2 := sameKey_iff.1 hqq
  cases op with
  | iterate x =>
    simp [SCOp.startsBefore] at hop; subst hop
    cases hx : s.map with
    | nil => rw [hx] at hm; simp at hm
    | cons e m =>
      refine ⟨e.1, by simp [SCSpec.step, SCSpec.put, hx], ?_⟩
      have hs := h.sorted
      rw [hx] at hm hs
      rcases List.mem_cons.1 hm with rfl | hm
      · exact hq2.1
      · exact sameKey_le hw hqq (hw.asymm ((List.pairwise_cons.1 hs).1 _ hm))
  | lowerBound x k =>
    simp [SCOp.startsBefore] at hop; obtain ⟨rfl, hk⟩ := hop
    obtain ⟨k', a1, a2⟩ := SMap.first_le hw h.sorted ⟨v, hm⟩ (k := k) (sameKey_le hw (sameKey_iff.2 ⟨hq2.2, hq2.1⟩) hk)
    exact ⟨k', by simp [SCSpec.step, SCSpec.put, a1], sameKey_le hw hqq a2⟩
  | findRange x k b =>
    simp [SCOp.startsBefore] at hop; obtain ⟨rfl, hk⟩ := hop
    obtain ⟨k', a1, a2⟩ := SMap.first_le hw h.sorted ⟨v, hm⟩ (k := k) (sameKey_le hw (sameKey_iff.2 ⟨hq2.2, hq2.1⟩) hk)
    exact ⟨k', by simp [SCSpec.step, SCSpec.put, a1], sameKey_le hw hqq a2⟩
  | upperBound x k =>
    simp [SCOp.startsBefore] at hop; obtain ⟨rfl, hk⟩ := hop
    obtain ⟨k', a1, a2⟩ := SMap.succ_le hw h.sorted ⟨v, hm⟩ (k := k) (hw.lt_of_lt_of_not hk hq2.2)
    exact ⟨k', by simp [SCSpec.step, SCSpec.put, a1], sameKey_le hw hqq a2⟩
  | _ => simp [SCOp.startsBefore] at hop

/-- The entry of key `q` is not removed. -/
theorem SCSpec.keeps (hw : StrictWeak less) {s : SCSpec K V} (h : SOk less s) {op : SCOp K V} {q : K} (hop : op.removesKey less q = false)
    (hq : (SMap.find less q s.map).isSome = true) : (SMap.find less q (s.step less op).2.map).isSome = true := by
  obtain ⟨q', v, hm, hqq⟩ := sameKey_find hw h.sorted hq
  have back : ∀ (m : List (K × V)), SMap.Sorted less m → (∃ v', (q', v') ∈ m) → (SMap.find less q m).isSome = true := by
    intro m hs ⟨v', hv'⟩
    obtain ⟨G, H, S, sp⟩ := SSplit.exists hw q m hs
    rw [SMap.find_split sp]
    rw [sp.eq] at hv'
    simp only [List.mem_append] at hv'
    rcases hv' with h' | h' | h'
    · have := sameKey_go sp h'; rw [hqq] at this; cases this
    · cases H with
      | nil => simp at h'
      | cons => rfl
    · have := sameKey_stop sp h'; rw [hqq] at this; cases this
  have hs' := (h.step hw op).1.sorted
  refine back _ hs' ?_
  cases op with
  | map r op =>
    cases op with
    | insert k x => exact SMap.mem_insert hw h.sorted hm
    | update k x =>
      simp only [SCSpec.step, SMap.step]
      split
      · exact SMap.mem_insert hw h.sorted hm
      · exact ⟨v, hm⟩
    | remove k =>
      refine ⟨v, List.mem_filter.2 ⟨hm, ?_⟩⟩
      simp only [SCOp.removesKey] at hop
      cases h1 : less k q' with
      | true => simp
      | false =>
        cases h2 : less q' k with
        | true => simp
        | false =>
          have a := sameKey_iff.1 hqq
          rw [sameKey_iff.2 ⟨hw.incomp _ _ _ h1 h2 a.2 a.1, hw.incomp _ _ _ a.1 a.2 h2 h1⟩] at hop; cases hop
    | clear => simp [SCOp.removesKey] at hop
    | _ => exact ⟨v, hm⟩
  | write p x =>
    simp only [SCSpec.step]
    cases s.ptrs p with
    | none => exact ⟨v, hm⟩
    | some d =>
      have : q' ∈ (s.assign less x d).map.map (·.1) := by
        rw [(s.assign_keys (less := less) x d).1]; exact List.mem_map.2 ⟨_, hm, rfl⟩
      obtain ⟨e, he, rfl⟩ := List.mem_map.1 this
      exact ⟨e.2, he⟩
  | key c => simp only [SCSpec.step]; split <;> exact ⟨v, hm⟩
  | value c => simp only [SCSpec.step]; split <;> exact ⟨v, hm⟩
  | next c => simp only [SCSpec.step]; split <;> exact ⟨v, hm⟩
  | pointer p c => simp only [SCSpec.step]; split <;> exact ⟨v, hm⟩
  | read c => simp only [SCSpec.step]; split <;> exact ⟨v, hm⟩
  | _ => exact ⟨v, hm⟩

/-- The end of an iterator stays if its entry is not removed. -/
theorem SCSpec.stop_step {s : SCSpec K V} {op : SCOp K V} {c : Nat} {q : K} (hop : op.removesKey less q = false)
    (hc : op.setsCur c = false) (hs : (s.curs c).stop = some (.live q)) : ((s.step less op).2.curs c).stop = some (.live q) := by
  cases op with
  | map r op =>
    simp only [SCSpec.step, SCur.after, hs, Option.map_some]
    cases op with
    | remove k => simp only [SCOp.removesKey] at hop; simp [SPlace.after, hop]
    | clear => simp [SCOp.removesKey] at hop
    | _ => rfl
  | iterate x => have : ¬ c = x := by simpa [SCOp.setsCur, eq_comm] using hc
                 simp [SCSpec.step, SCSpec.put, this, hs]
  | lowerBound x k => have : ¬ c = x := by simpa [SCOp.setsCur, eq_comm] using hc
                      simp [SCSpec.step, SCSpec.put, this, hs]
  | upperBound x k => have : ¬ c = x := by simpa [SCOp.setsCur, eq_comm] using hc
                      simp [SCSpec.step, SCSpec.put, this, hs]
  | findRange x a b => have : ¬ c = x := by simpa [SCOp.setsCur, eq_comm] using hc
                       simp [SCSpec.step, SCSpec.put, this, hs]
  | isNotEnd x => exact hs
  | key x => simp only [SCSpec.step]; split <;> exact hs
  | value x => simp only [SCSpec.step]; split <;> exact hs
  | read x => simp only [SCSpec.step]; split <;> exact hs
  | find p k => exact hs
  | pointer p x => simp only [SCSpec.step]; split <;> exact hs
  | write p v =>
    simp only [SCSpec.step]
    cases s.ptrs p with
    | none => exact hs
    | some d => simp only; rw [(s.assign_keys (less := less) v d).2.2]; exact hs
  | next x =>
    simp only [SCSpec.step]
    cases hd : (s.curs x).next less s.map with
    | none => exact hs
    | some d =>
      by_cases hx : c = x
      · subst hx
        simp only [SCSpec.put, if_true]
        unfold SCur.next at hd
        cases hg : (s.curs c).gone with
        | cons i g => simp [hg] at hd; subst hd; exact hs
        | nil => cases hst : (s.curs c).start with
          | none => simp [hg, hst] at hd
          | some k => simp [hg, hst] at hd; subst hd; exact hs
      · simp [SCSpec.put, hx, hs]

/-- Where an iterator is that has its end ahead. -/
theorem CurOk.at_stop (hw : StrictWeak less) {m rem : List (K × V)} {c : SCur K} (h : CurOk less m rem c) {q : K} (hb : c.Before less q)
    (hs : c.stop = some (.live q)) : ∃ k, (SCSpec.ahead rem c).head? = some k ∧
      (samePlace less c.place c.stop = true ∧ sameKey less k q = true ∨ samePlace less c.place c.stop = false ∧ less k q = true) := by
  obtain ⟨st, hst, hlt⟩ := hb
  rw [hs]
  cases hg : c.gone with
  | nil =>
    refine ⟨st, by simp [SCSpec.ahead, hg, hst], ?_⟩
    simp only [SCur.place, hg, hst, Option.map_some, samePlace]
    cases hk : sameKey less st q with
    | true => exact .inl ⟨rfl, rfl⟩
    | false =>
      right
      refine ⟨rfl, ?_⟩
      cases hx : less st q with
      | true => rfl
      | false => rw [sameKey_iff.2 ⟨hx, hlt⟩] at hk; cases hk
  | cons i g =>
    have hi := h.idx i (by simp [hg])
    have e : SCSpec.ahead rem c = (rem[i]).1 :: SCSpec.ahead rem { c with gone := g } := by
      simp [SCSpec.ahead, hg, List.getElem?_eq_getElem hi]
    have ha := h.asc
    rw [e, List.pairwise_cons] at ha
    refine ⟨_, by rw [e]; rfl, .inr ⟨by simp [SCur.place, hg, samePlace], ?_⟩⟩
    have := ha.1 st (by simp [SCSpec.ahead, hst])
    exact hw.lt_of_lt_of_not this hlt

/-- Along a history that moves the iterator only when it is not at its end. -/
theorem SOk.range_run (hw : StrictWeak less) (c : Nat) {q : K} (ops : List (SCOp K V))
    (hc : ∀ op ∈ ops, op.setsCur c = false ∧ op.removesKey less q = false) :
    ∀ {s : SCSpec K V}, SOk less s → (SMap.find less q s.map).isSome = true → (s.curs c).Before less q → (s.curs c).stop = some (.live q) →
    (∀ pre, pre ++ [.next c] <+: ops → samePlace less ((s.run less pre).2.curs c).place ((s.run less pre).2.curs c).stop = false) →
    SOk less (s.run less ops).2 ∧ ((s.run less ops).2.curs c).Before less q ∧ ((s.run less ops).2.curs c).stop = some (.live q) := by
  induction ops with
  | nil => intro s h _ hb hs _; exact ⟨h, hb, hs⟩
  | cons op ops ih =>
    intro s h hq hb hs hd
    have hop := hc op (by simp)
    have hq' := SCSpec.keeps hw h hop.2 hq
    refine ih (fun o ho => hc o (by simp [ho])) (h.step hw op).1 hq' ?_ (SCSpec.stop_step hop.2 hop.1 hs)
      (fun pre hp => hd (op :: pre) (by rw [List.cons_append, List.cons_prefix_cons]; exact ⟨rfl, hp⟩))
    refine h.before_step hw op c hop.1 hq hq' hb (fun e k hk => ?_)
    obtain ⟨k', a1, a2⟩ := (h.curs c).at_stop hw hb hs
    rw [a1] at hk; injection hk with hk; subst hk
    have := hd [] (by subst e; simp)
    rcases a2 with ⟨a2, _⟩ | ⟨_, a3⟩
    · have this : samePlace less (s.curs c).place (s.curs c).stop = false := this
      rw [a2] at this; cases this
    · cases hx : sameKey less q k' with
      | false => rfl
      | true => rw [(sameKey_iff.1 hx).2] at a3; cases a3

/-! ## Number of steps -/

/-- How many steps the iterator can do if the map stays as it is. -/
def SCSpec.room (less : K → K → Bool) (m : List (K × V)) (c : SCur K) : Nat :=
  c.gone.length + (match c.start with
    | none => 0
    | some st => (m.filter (fun e => !(less e.1 st))).length)

theorem SCSpec.room_le {m : List (K × V)} {c : SCur K} (hg : c.gone = []) : SCSpec.room less m c ≤ m.length := by
  unfold SCSpec.room
  rw [hg]
  cases c.start with
  | none => simp
  | some st => simpa using List.length_filter_le _ _

theorem filter_keys {m : List (K × V)} (p : K → Bool) : (m.filter (fun e => p e.1)).length = ((m.map (·.1)).filter p).length := by
  rw [List.filter_map, List.length_map]; rfl

theorem SCSpec.room_congr {m m' : List (K × V)} {c : SCur K} (hm : m'.map (·.1) = m.map (·.1)) :
    SCSpec.room less m' c = SCSpec.room less m c := by
  unfold SCSpec.room
  cases c.start with
  | none => rfl
  | some st => simp only; rw [filter_keys (fun k => !(less k st)), hm, ← filter_keys (fun k => !(less k st))]

theorem SCSpec.room_mono {m m' : List (K × V)} {c : SCur K} (hm : m'.Sublist m) : SCSpec.room less m' c ≤ SCSpec.room less m c := by
  unfold SCSpec.room
  cases c.start with
  | none => exact Nat.le_refl _
  | some st => have := (hm.filter (fun e => !(less e.1 st))).length_le; simp only; omega

theorem CurOk.room_map (hw : StrictWeak less) {m rem : List (K × V)} (hs : SMap.Sorted less m) {c : SCur K} (h : CurOk less m rem c)
    (r : Nat) (op : SMOp K V) :
    SCSpec.room less (SMap.step less m op).2 (c.after less m rem.length op) ≤
      SCSpec.room less m c + (if (SCOp.map r op).isInsert then 1 else 0) := by
  cases op with
  | insert k v =>
    rw [SCur.after_id (by simp) (by simp)]
    simp only [SMap.step, SCOp.isInsert, if_true]
    obtain ⟨G, H, S, sp⟩ := SSplit.exists hw k m hs
    rcases sp.cases with rfl | ⟨e, rfl⟩
    · rw [SMap.insert_miss hw sp]
      conv => rhs; rw [sp.eq]
      unfold SCSpec.room
      cases c.start with
      | none => simp
      | some st =>
        simp only [List.filter_append, List.length_append, List.filter_cons, List.nil_append]
        split <;> simp <;> omega
    · rw [SMap.insert_hit hw sp]
      rw [SCSpec.room_congr (m := m) (by conv => rhs; rw [sp.eq]
                                         simp)]
      omega
  | update k v =>
    rw [SCur.after_id (by simp) (by simp)]
    simp only [SMap.step, SCOp.isInsert]
    obtain ⟨G, H, S, sp⟩ := SSplit.exists hw k m hs
    rcases sp.cases with rfl | ⟨e, rfl⟩
    · rw [SMap.find_split sp]; simp
    · rw [SMap.find_split sp, SMap.insert_hit hw sp]
      simp only [List.head?_cons, Option.map_some, Option.isSome_some, if_true]
      rw [SCSpec.room_congr (m := m) (by conv => rhs; rw [sp.eq]
                                         simp)]
      simp
  | remove k =>
    simp only [SMap.step, SCOp.isInsert]
    cases hst : c.start with
    | none => simp [SCSpec.room, SCur.after, hst]
    | some st =>
      obtain ⟨v, hv⟩ := h.here st hst
      obtain ⟨G, S, sp⟩ := SSplit.at hw hs hv
      by_cases hk : sameKey less k st = true
      · have e1 : (c.after less m rem.length (.remove k)).gone = c.gone ++ [rem.length] := by simp [SCur.after, hst, hk]
        have e2 : (c.after less m rem.length (.remove k)).start = S.head?.map (·.1) := by simp [SCur.after, hst, hk, SMap.succ_split hw sp]
        simp only [SCSpec.room, e1, e2, hst, SMap.lower_split hw sp]
        cases S with
        | nil => simp
        | cons e S =>
          simp only [List.head?_cons, Option.map_some]
          have hmono := ((List.filter_sublist (l := m) (p := fun e => less k e.1 || less e.1 k)).filter (fun x => !(less x.1 e.1))).length_le
          have hcnt : (m.filter (fun x => !(less x.1 e.1))).length ≤ (e :: S).length := by
            rw [sp.eq]
            simp only [List.filter_append, List.length_append]
            have z1 : G.filter (fun x => !(less x.1 e.1)) = [] := List.filter_eq_nil_iff.2 (fun x hx => by
              simp [hw.trans _ _ _ (sp.go x hx) (sp.stop e (by simp))])
            have z2 : ([(st, v)] : List (K × V)).filter (fun x => !(less x.1 e.1)) = [] := List.filter_eq_nil_iff.2 (fun x hx => by
              simp at hx; subst hx; simp [sp.stop e (by simp)])
            have z3 := List.length_filter_le (fun x : K × V => !(less x.1 e.1)) (e :: S)
            rw [z1, z2]
            simpa using z3
          simp only [SMap.erase, List.length_append, List.length_cons] at hmono hcnt ⊢
          omega
      · have e1 : (c.after less m rem.length (.remove k)).gone = c.gone := by simp [SCur.after, hst, hk]
        have e2 : (c.after less m rem.length (.remove k)).start = some st := by simp [SCur.after, hst, hk]
        have := SCSpec.room_mono (less := less) (c := c) (List.filter_sublist (l := m) (p := fun e => less k e.1 || less e.1 k))
        simp only [SCSpec.room, e1, e2, hst] at this ⊢
        simpa [SMap.erase] using this
  | clear =>
    simp only [SMap.step, SCOp.isInsert]
    cases hst : c.start with
    | none => simp [SCSpec.room, SCur.after, hst]
    | some st =>
      obtain ⟨v, hv⟩ := h.here st hst
      obtain ⟨G, S, sp⟩ := SSplit.at hw hs hv
      have hlen : m.length = G.length + (S.length + 1) := by rw [sp.eq]; simp
      simp only [SCSpec.room, SCur.after, hst, SMap.rank_split hw sp, SMap.lower_split hw sp, hlen, List.length_append, List.length_range']
      simp; omega
  | find k => rw [SCur.after_id (by simp) (by simp)]; exact Nat.le_add_right _ _
  | has k => rw [SCur.after_id (by simp) (by simp)]; exact Nat.le_add_right _ _
  | len => rw [SCur.after_id (by simp) (by simp)]; exact Nat.le_add_right _ _
  | isEmpty => rw [SCur.after_id (by simp) (by simp)]; exact Nat.le_add_right _ _
  | iterate => rw [SCur.after_id (by simp) (by simp)]; exact Nat.le_add_right _ _
  | lowerBound k => rw [SCur.after_id (by simp) (by simp)]; exact Nat.le_add_right _ _
  | upperBound k => rw [SCur.after_id (by simp) (by simp)]; exact Nat.le_add_right _ _

theorem CurOk.room_next (hw : StrictWeak less) {m rem : List (K × V)} (hs : SMap.Sorted less m) {c d : SCur K} (h : CurOk less m rem c)
    (hd : c.next less m = some d) : SCSpec.room less m d + 1 ≤ SCSpec.room less m c := by
  unfold SCur.next at hd
  cases hg : c.gone with
  | cons i g =>
    simp [hg] at hd
    subst hd
    simp only [SCSpec.room, hg, List.length_cons]; omega
  | nil =>
    cases hst : c.start with
    | none => simp [hg, hst] at hd
    | some st =>
      simp [hg, hst] at hd
      subst hd
      obtain ⟨v, hv⟩ := h.here st hst
      obtain ⟨G, S, sp⟩ := SSplit.at hw hs hv
      simp only [SCSpec.room, hg, hst, SMap.succ_split hw sp, SMap.lower_split hw sp]
      cases S with
      | nil => simp
      | cons e S =>
        simp only [List.head?_cons, Option.map_some]
        have z1 : G.filter (fun x => !(less x.1 e.1)) = [] := List.filter_eq_nil_iff.2 (fun x hx => by
          simp [hw.trans _ _ _ (sp.go x hx) (sp.stop e (by simp))])
        have z2 : ([(st, v)] : List (K × V)).filter (fun x => !(less x.1 e.1)) = [] := List.filter_eq_nil_iff.2 (fun x hx => by
          simp at hx; subst hx; simp [sp.stop e (by simp)])
        have z3 := List.length_filter_le (fun x : K × V => !(less x.1 e.1)) (e :: S)
        rw [sp.eq]
        simp only [List.filter_append, List.length_append, z1, z2, List.length_nil, List.length_cons] at z3 ⊢
        omega

theorem SOk.room_step (hw : StrictWeak less) {s : SCSpec K V} (h : SOk less s) (op : SCOp K V) (c : Nat) (hc : op.setsCur c = false) :
    SCSpec.room less (s.step less op).2.map ((s.step less op).2.curs c) + (if op.moves c && (s.step less op).1.isUnit then 1 else 0) ≤
      SCSpec.room less s.map (s.curs c) + (if op.isInsert then 1 else 0) := by
  have plain : op.moves c = false → (s.step less op).2.curs c = s.curs c → (s.step less op).2.map.map (·.1) = s.map.map (·.1) →
      SCSpec.room less (s.step less op).2.map ((s.step less op).2.curs c) + (if op.moves c && (s.step less op).1.isUnit then 1 else 0) ≤
      SCSpec.room less s.map (s.curs c) + (if op.isInsert then 1 else 0) := by
    intro h1 h2 h3
    rw [h2, SCSpec.room_congr h3, h1]
    simp
  cases op with
  | map r op => simpa [SCOp.moves, SCSpec.step] using (h.curs c).room_map hw h.sorted r op
  | iterate x => exact plain rfl (by have : ¬ c = x := by simpa [SCOp.setsCur, eq_comm] using hc
                                     simp [SCSpec.step, SCSpec.put, this]) rfl
  | lowerBound x k => exact plain rfl (by have : ¬ c = x := by simpa [SCOp.setsCur, eq_comm] using hc
                                          simp [SCSpec.step, SCSpec.put, this]) rfl
  | upperBound x k => exact plain rfl (by have : ¬ c = x := by simpa [SCOp.setsCur, eq_comm] using hc
                                          simp [SCSpec.step, SCSpec.put, this]) rfl
  | findRange x a b => exact plain rfl (by have : ¬ c = x := by simpa [SCOp.setsCur, eq_comm] using hc
                                           simp [SCSpec.step, SCSpec.put, this]) rfl
  | isNotEnd x => exact plain rfl rfl rfl
  | key x => exact plain rfl (by simp only [SCSpec.step]; split <;> rfl) (by simp only [SCSpec.step]; split <;> rfl)
  | value x => exact plain rfl (by simp only [SCSpec.step]; split <;> rfl) (by simp only [SCSpec.step]; split <;> rfl)
  | read x => exact plain rfl (by simp only [SCSpec.step]; split <;> rfl) (by simp only [SCSpec.step]; split <;> rfl)
  | find p k => exact plain rfl rfl rfl
  | pointer p x => exact plain rfl (by simp only [SCSpec.step]; split <;> rfl) (by simp only [SCSpec.step]; split <;> rfl)
  | write p v =>
    refine plain rfl ?_ ?_ <;> simp only [SCSpec.step] <;> cases s.ptrs p with
    | none => rfl
    | some d => first | exact congrFun (s.assign_keys (less := less) v d).2.2 c | exact (s.assign_keys (less := less) v d).1
  | next x =>
    cases hd : (s.curs x).next less s.map with
    | none => simp [SCSpec.step, hd, SCObs.isUnit]
    | some d =>
      by_cases hx : x = c
      · subst hx
        simpa [SCSpec.step, hd, SCObs.isUnit, SCOp.moves, SCSpec.put, SCOp.isInsert] using (h.curs x).room_next hw h.sorted hd
      · have hx' : ¬ c = x := fun e => hx e.symm
        simp [SCSpec.step, hd, SCOp.moves, SCSpec.put, SCOp.isInsert, hx, hx']

theorem SOk.room_run (hw : StrictWeak less) (c : Nat) (ops : List (SCOp K V)) (hc : ∀ op ∈ ops, op.setsCur c = false) :
    ∀ {s : SCSpec K V}, SOk less s →
    moveCount c ops (s.run less ops).1 ≤ SCSpec.room less s.map (s.curs c) + ops.countP SCOp.isInsert := by
  induction ops with
  | nil => intro s h; simp [moveCount]
  | cons op ops ih =>
    intro s h
    have h1 := h.room_step hw op c (hc op (by simp))
    have h2 := ih (fun o ho => hc o (by simp [ho])) (h.step hw op).1
    simp only [moveCount, SCSpec.run, List.zip_cons_cons, List.countP_cons] at h2 ⊢
    omega

/-! ## Removing a range -/

/-- One round of the loop that removes a range: the map is `L ++ e :: (M ++ R)`, the iterator is on `e` and ends at the beginning of `R`. -/
theorem SCSpec.erase_round (hw : StrictWeak less) (early : Bool) (c : Nat) {s : SCSpec K V} {L M R : List (K × V)} {e : K × V}
    (hs : SMap.Sorted less s.map) (hm : s.map = L ++ e :: (M ++ R)) (hg : (s.curs c).gone = []) (hst : (s.curs c).start = some e.1)
    (hstop : (s.curs c).stop = (R.head?.map (·.1)).map .live) :
    (s.step less (.isNotEnd c)).1 = .of (.flag true) ∧ (s.step less (.key c)).1 = .key e.1 ∧
    let p : SCOp K V × SCOp K V := if early then (.next c, .map 0 (.remove e.1)) else (.map 0 (.remove e.1), .next c)
    let o : SCObs K V × SCObs K V := if early then (.of .unit, .of (.flag true)) else (.of (.flag true), .of .unit)
    let s1 := (s.step less p.1).2
    let s2 := (s1.step less p.2).2
    (s.step less p.1).1 = o.1 ∧ (s1.step less p.2).1 = o.2 ∧
    s2.map = L ++ (M ++ R) ∧ (s2.curs c).gone = [] ∧ (s2.curs c).start = (M ++ R).head?.map (·.1) ∧ (s2.curs c).stop = (R.head?.map (·.1)).map .live := by
  have sp : SSplit less e.1 s.map L [e] (M ++ R) := by
    have hs' := hs
    unfold SMap.Sorted at hs'
    rw [hm, List.pairwise_append] at hs'
    exact ⟨by rw [hm]; rfl, fun x hx => hs'.2.2 x hx e (by simp), fun x hx => by simp at hx; subst hx; exact ⟨hw.irrefl _, hw.irrefl _⟩,
      (List.pairwise_cons.1 hs'.2.1).1, by simp⟩
  have hplace : (s.curs c).place = some (.live e.1) := by simp [SCur.place, hg, hst]
  have hR : ∀ x ∈ R.head?, less e.1 x.1 = true := by
    intro x hx
    exact sp.stop x (List.mem_append_right _ (List.mem_of_head? hx))
  have hMR : ∀ x ∈ (M ++ R).head?, less e.1 x.1 = true := fun x hx => sp.stop x (List.mem_of_head? hx)
  have hns : ∀ x : K, less e.1 x = true → sameKey less e.1 x = false := by intro x hx; simp [sameKey, hx]
  have hfind : SMap.find less e.1 s.map = some e.2 := by rw [SMap.find_split sp]; rfl
  have hstop' : ((s.curs c).stop).map (SPlace.after less s.map s.removed.length (.remove e.1)) = (R.head?.map (·.1)).map .live := by
    rw [hstop]
    cases hx : R.head? with
    | none => rfl
    | some x => simp [SPlace.after, hns _ (hR x (by rw [hx]; rfl))]
  refine ⟨?_, ?_, ?_⟩
  · simp only [SCSpec.step, hplace, hstop]
    cases hx : R.head? with
    | none => rfl
    | some x => simp [samePlace, hns _ (hR x (by rw [hx]; rfl))]
  · simp [SCSpec.step, hplace, SCSpec.entry, SMap.find_same_split sp]
  · cases early with
    | false =>
      have e1 : ((s.curs c).after less s.map s.removed.length (.remove e.1)).gone = [s.removed.length] := by
        simp [SCur.after, hst, hg, sameKey, hw.irrefl]
      have e2 : ((s.curs c).after less s.map s.removed.length (.remove e.1)).start = (M ++ R).head?.map (·.1) := by
        simp only [SCur.after, hst, sameKey, hw.irrefl]; simp [SMap.succ_split hw sp]
      simp only [Bool.false_eq_true, if_false, SCSpec.step, SMap.step, hfind, SMap.erase_split sp, SCur.next, e1, SCSpec.put, if_true]
      exact ⟨rfl, trivial, trivial, trivial, e2, hstop'⟩
    | true =>
      have e1 : (s.curs c).next less s.map = some { s.curs c with start := (M ++ R).head?.map (·.1) } := by
        simp only [SCur.next, hg, hst, SMap.succ_split hw sp]
      simp only [if_true, SCSpec.step, e1, SCSpec.put, SMap.step, hfind, SMap.erase_split sp]
      refine ⟨by first | rfl | trivial, by first | rfl | trivial, by first | rfl | trivial, ?_, ?_, hstop'⟩
      · simp only [SCur.after]
        cases hx : (M ++ R).head? with
        | none => simp [hg]
        | some x => simp [hns _ (hMR x (by rw [hx]; rfl)), hg]
      · simp only [SCur.after]
        cases hx : (M ++ R).head? with
        | none => simp
        | some x => simp [hns _ (hMR x (by rw [hx]; rfl))]

theorem SCInv.erase {impl : SLImpl K} (hl : impl.Lawful) (early : Bool) (c : Nat) (R : List (K × V)) (L : List (K × V)) (M : List (K × V)) :
    ∀ {w : SCWorld K V} {s : SCSpec K V} {ids D : List Nat}, SCInv impl w s ids D → s.map = L ++ (M ++ R) → (s.curs c).gone = [] →
    (s.curs c).start = (M ++ R).head?.map (·.1) → (s.curs c).stop = (R.head?.map (·.1)).map .live →
    ∀ fuel, M.length < fuel → ∃ w' s' ids' D', SCWorld.eraseLoop impl early c fuel w = .ret w' ∧ SCInv impl w' s' ids' D' ∧ s'.map = L ++ R := by
  induction M with
  | nil =>
    intro w s ids D h hm hg hst hstop fuel hf
    cases fuel with
    | zero => simp at hf
    | succ f =>
      have : (w.step impl (.isNotEnd c)).1 = .of (.flag false) := by
        rw [(h.step hl (.isNotEnd c)).1]
        simp only [SCSpec.step, SCur.place, hg, hst, hstop, List.nil_append]
        cases R.head? with
        | none => rfl
        | some x => simp [samePlace, sameKey, hl.weak.irrefl]
      exact ⟨w, s, ids, D, by simp [SCWorld.eraseLoop, this], h, by simpa using hm⟩
  | cons e M ih =>
    intro w s ids D h hm hg hst hstop fuel hf
    cases fuel with
    | zero => simp at hf
    | succ f =>
      have hm' : s.map = L ++ e :: (M ++ R) := by rw [hm]; rfl
      obtain ⟨r1, r2, r3, r4, r5, r6, r7, r8⟩ := SCSpec.erase_round hl.weak early c h.base.inv.sorted hm' hg (by rw [hst]; rfl) hstop
      have q1 := (h.step hl (.isNotEnd c)).1.trans r1
      have q2 := (h.step hl (.key c)).1.trans r2
      cases early with
      | false =>
        simp only [Bool.false_eq_true, if_false] at r3 r4 r5 r6 r7 r8
        obtain ⟨a1, _, _, _, a2, _⟩ := h.step hl (.map 0 (.remove e.1))
        obtain ⟨b1, _, _, _, b2, _⟩ := a2.step hl (.next c)
        obtain ⟨w', s', ids', D', c1, c2, c3⟩ := ih b2 r5 r6 r7 r8 f (by simpa using hf)
        refine ⟨w', s', ids', D', ?_, c2, c3⟩
        simp only [SCWorld.eraseLoop, q1, q2]
        simp only [a1, r3, b1, r4, Bool.false_eq_true, if_false]
        exact c1
      | true =>
        simp only [if_true] at r3 r4 r5 r6 r7 r8
        obtain ⟨a1, _, _, _, a2, _⟩ := h.step hl (.next c)
        obtain ⟨b1, _, _, _, b2, _⟩ := a2.step hl (.map 0 (.remove e.1))
        obtain ⟨w', s', ids', D', c1, c2, c3⟩ := ih b2 r5 r6 r7 r8 f (by simpa using hf)
        refine ⟨w', s', ids', D', ?_, c2, c3⟩
        simp only [SCWorld.eraseLoop, q1, q2]
        simp only [a1, r3, b1, r4, if_true]
        exact c1

end Stl4go
