import Verif.Proofs.SkipListMRun
/-! # Skip list: reading with a compare function that may answer anything -/
namespace Stl4go
variable {K V τ α β : Type} {cmp : CmpM K τ} {key : K} {sl : SL K V} {ids : List Nat} {m : List (K × V)} {less : K → K → Bool}

theorem Safe.bind {P : α → Prop} {Q : β → Prop} {x : GoM (SLS K V τ) α} {f : α → GoM (SLS K V τ) β} {s : SLS K V τ}
    (h : Safe cmp key sl P (x s)) (hf : ∀ a t, P a → Safe cmp key sl Q (f a ⟨sl, t⟩)) : Safe cmp key sl Q ((x >>= f) s) := by
  rw [GoM.bind_def]
  cases e : x s with
  | ok a s' =>
    rw [e] at h
    obtain ⟨h1, h2⟩ := h
    have := hf a s'.st h2
    rw [← h1] at this ⊢
    exact this
  | panic s' => rw [e] at h; exact h
  | diverge => rw [e] at h; exact h

theorem Safe.read {P : α → Prop} {f : SL K V → Outcome α} {t : τ} {a : α} (h : f sl = .ret a) (hp : P a) :
    Safe cmp key sl P (SLS.read f ⟨sl, t⟩) := by
  simp only [SLS.read, h]; exact ⟨rfl, hp⟩

theorem Safe.call {k : K} {t : τ} : Safe cmp key sl (fun _ => True) (SLS.call (cmp k key) ⟨sl, t⟩) := by
  simp only [SLS.call]
  cases e : cmp k key t with
  | ok r t' => exact ⟨rfl, trivial⟩
  | panic t' => exact ⟨rfl, k, t, t', e⟩
  | diverge => exact ⟨k, t, e⟩

theorem Safe.pure {P : α → Prop} {t : τ} {a : α} (hp : P a) : Safe cmp key sl P ((Pure.pure a : GoM (SLS K V τ) α) ⟨sl, t⟩) := ⟨rfl, hp⟩

/-- What a loop of the search may return. -/
def LoopOk (sl : SL K V) (ids : List Nat) (i : Nat) : Nat ⊕ Ref → Prop
  | .inl p => p ∈ ids
  | .inr r => ∃ A B, ids = A ++ B ∧ RefAt sl.lvl i A r

theorem lowerBoundInner_safe (L : Linked sl.get sl.lvl ids) {i : Nat} : ∀ (fuel : Nat) (A B : List Nat) (r : Ref) (t : τ),
    ids = A ++ B → RefAt sl.lvl i A r → B.length < fuel →
    Safe cmp key sl (LoopOk sl ids i) (SLM.lowerBoundInner cmp key i fuel r (firstAt sl.lvl i B) ⟨sl, t⟩) := by
  intro fuel
  induction fuel with
  | zero => intro A B r t _ _ h; omega
  | succ fuel ih =>
    intro A B r t e hr hf
    cases hc : firstAt sl.lvl i B with
    | none => exact Safe.pure ⟨A, B, e, hr⟩
    | some c =>
      obtain ⟨P, Q, rfl, hic, hP⟩ := firstAt_some hc
      obtain ⟨⟨k, v⟩, hkv⟩ := SL.kv_of_lvl (sl := sl) (p := c) (by omega)
      obtain ⟨n, hn, hk, _⟩ := SL.kv_some hkv
      have hd : sl.deref c = .ret n := idx_of_get hn
      have hget := L.node_get (A ++ P) c Q (by rw [e]; simp) i hic
      rw [SL.get_node hn] at hget
      refine Safe.bind (Safe.read hd (P := fun a => a = n) rfl) ?_
      rintro _ t rfl
      refine Safe.bind Safe.call ?_
      intro x t _
      split
      · exact Safe.pure (by show c ∈ ids; rw [e]; simp)
      · split
        · exact Safe.pure ⟨A, _, e, hr⟩
        · refine Safe.bind (Safe.read (a := firstAt sl.lvl i Q) (P := fun a => a = firstAt sl.lvl i Q) ?_ rfl) ?_
          · simp only [hd, Outcome.ret_bind, idx_of_get hget]
          · rintro _ t rfl
            exact ih (A ++ P ++ [c]) Q (.node c) t (by rw [e]; simp) (.inr ⟨A ++ P, c, rfl, rfl, hic⟩) (by simp at hf; omega)

theorem lowerBoundOuter_safe (L : Linked sl.get sl.lvl ids) (hlen : ids.length ≤ sl.nodes.length) :
    ∀ (i : Nat) (A B : List Nat) (r : Ref) (t : τ), i ≤ 40 → ids = A ++ B → RefAt sl.lvl (i - 1) A r →
    Safe cmp key sl (LoopOk sl ids 0) (SLM.lowerBoundOuter cmp key sl.nodes.length i r ⟨sl, t⟩) := by
  intro i
  induction i with
  | zero => intro A B r t _ e hr; exact Safe.pure ⟨A, B, e, hr⟩
  | succ i ih =>
    intro A B r t hi e hr
    have hn := hr.next L (by omega) e
    simp only [Nat.add_sub_cancel] at hr hn
    refine Safe.bind (Safe.read hn (P := fun a => a = firstAt sl.lvl i B) rfl) ?_
    rintro _ t rfl
    refine Safe.bind (lowerBoundInner_safe L (sl.nodes.length + 1) A B r t e hr (by rw [e] at hlen; simp at hlen; omega)) ?_
    intro w t hw
    cases w with
    | inl p => exact Safe.pure hw
    | inr r2 =>
      obtain ⟨A2, B2, e2, hr2⟩ := hw
      exact ih A2 B2 r2 t (by omega) e2 (hr2.lower (by omega))

theorem SLInv.lowerBound_safe (h : SLInv less sl ids m) (t : τ) :
    Safe cmp key sl (fun p : Option Nat => ∃ A B, ids = A ++ B ∧ p = B.head?) (SLM.lowerBound cmp key ⟨sl, t⟩) := by
  refine Safe.bind (Safe.read (f := Outcome.ret) rfl (P := fun a => sl = a) rfl) ?_
  rintro _ t rfl
  refine Safe.bind (lowerBoundOuter_safe h.linked h.count sl.level [] ids .head t h.level_le rfl (.inl ⟨rfl, rfl⟩)) ?_
  intro w t hw
  cases w with
  | inl p =>
    obtain ⟨A, B, e⟩ := List.append_of_mem (show p ∈ ids from hw)
    exact Safe.pure ⟨A, p :: B, e, rfl⟩
  | inr r =>
    obtain ⟨A, B, e, hr⟩ := hw
    have := hr.next h.linked (by omega) e
    rw [h.firstAt_zero (fun q hq => by rw [e]; simp [hq])] at this
    exact Safe.read this ⟨A, B, e, rfl⟩

theorem SLInv.findNode_safe (h : SLInv less sl ids m) (t : τ) :
    Safe cmp key sl (fun p : Option Nat => ∀ q, p = some q → q ∈ ids) (SLM.findNode cmp key ⟨sl, t⟩) := by
  refine Safe.bind (h.lowerBound_safe t) ?_
  rintro p t ⟨A, B, e, rfl⟩
  cases B with
  | nil => exact Safe.pure (by simp)
  | cons q B =>
    obtain ⟨n, hn, hkv, hnx⟩ := h.next_node e
    refine Safe.bind (Safe.read (idx_of_get hn : sl.deref q = .ret n) (P := fun a => a = n) rfl) ?_
    rintro _ t rfl
    refine Safe.bind Safe.call ?_
    intro x t _
    split
    · exact Safe.pure (by rintro _ ⟨⟩; rw [e]; simp)
    · exact Safe.pure (by simp)

theorem SLInv.upperBound_safe (h : SLInv less sl ids m) (t : τ) :
    Safe cmp key sl (fun p : Option Nat => ∃ A B, ids = A ++ B ∧ p = B.head?) (SLM.upperBound cmp key ⟨sl, t⟩) := by
  refine Safe.bind (h.lowerBound_safe t) ?_
  rintro p t ⟨A, B, e, rfl⟩
  cases B with
  | nil => exact Safe.pure ⟨A, [], e, rfl⟩
  | cons q B =>
    obtain ⟨n, hn, hkv, hnx⟩ := h.next_node e
    have hd : sl.deref q = .ret n := idx_of_get hn
    refine Safe.bind (Safe.read hd (P := fun a => a = n) rfl) ?_
    rintro _ t rfl
    refine Safe.bind Safe.call ?_
    intro x t _
    split
    · refine Safe.read (a := B.head?) ?_ ⟨A ++ [q], B, by simp [e], rfl⟩
      simp only [hd, Outcome.ret_bind, idx_of_get hnx]
    · exact Safe.pure ⟨A, q :: B, e, rfl⟩

theorem SLInv.suffix (h : SLInv less sl ids m) {A B : List Nat} (e : ids = A ++ B) :
    ∃ mA mB, m = mA ++ mB ∧ sl.observeIter { node := B.head?, stop := none } = .ret mB := by
  have hk := h.kvs
  rw [e] at hk
  obtain ⟨mA, mB, e1, _, h2⟩ := kv_lists hk
  exact ⟨mA, mB, e1, h.observe e h2⟩

theorem SLInv.reads_safe (h : SLInv less sl ids m) (t : τ) (rnd : Nat) {op : SMOp K V}
    (hop : op = .find key ∨ op = .has key ∨ op = .lowerBound key ∨ op = .upperBound key) :
    Safe cmp key sl (ReadShows m op) (SLM.exec cmp rnd op ⟨sl, t⟩) := by
  rcases hop with rfl | rfl | rfl | rfl
  · refine Safe.bind (h.findNode_safe t) ?_
    intro p t hp
    cases p with
    | none => exact Safe.pure (.inl rfl)
    | some q =>
      obtain ⟨e, he, hkv⟩ := mem_kv h.kvs (hp q rfl)
      obtain ⟨n, hn, _, hv⟩ := SL.kv_some hkv
      refine Safe.read (a := .val (some e.2)) ?_ (.inr ⟨e, he, rfl⟩)
      simp [SL.readPtr, SL.deref, idx_of_get hn, hv]
  · refine Safe.bind (Safe.bind (h.findNode_safe t) (Q := fun _ => True) ?_) ?_
    · intro p t hp; exact Safe.pure trivial
    · intro b t _; exact Safe.pure ⟨b, rfl⟩
  · refine Safe.bind (Safe.bind (h.lowerBound_safe t) (Q := fun it => ∃ A B, ids = A ++ B ∧ it = { node := B.head?, stop := none }) ?_) ?_
    · rintro p t ⟨A, B, e, rfl⟩; exact Safe.pure ⟨A, B, e, rfl⟩
    · rintro it t ⟨A, B, e, rfl⟩
      obtain ⟨mA, mB, e1, e2⟩ := h.suffix e
      refine Safe.read (a := .entries mB) ?_ ⟨mA, mB, e1, rfl⟩
      simp only [e2, Outcome.ret_bind]; rfl
  · refine Safe.bind (Safe.bind (h.upperBound_safe t) (Q := fun it => ∃ A B, ids = A ++ B ∧ it = { node := B.head?, stop := none }) ?_) ?_
    · rintro p t ⟨A, B, e, rfl⟩; exact Safe.pure ⟨A, B, e, rfl⟩
    · rintro it t ⟨A, B, e, rfl⟩
      obtain ⟨mA, mB, e1, e2⟩ := h.suffix e
      refine Safe.read (a := .entries mB) ?_ ⟨mA, mB, e1, rfl⟩
      simp only [e2, Outcome.ret_bind]; rfl

/-- A loop over a level does not end at a node that is linked to itself, as long as the answers are negative. -/
theorem lowerBoundInner_self {cmp : CmpM K τ} {key : K} {i p : Nat} {sl : SL K V} {n : SLNode K V} (hd : sl.deref p = .ret n)
    (hn : idx n.next i = .ret (some p)) (P : τ → Prop) (hc : ∀ t, P t → ∃ r t', cmp n.key key t = .ok r t' ∧ r < 0 ∧ P t') :
    ∀ fuel prev t, P t → SLM.lowerBoundInner cmp key i fuel prev (some p) ⟨sl, t⟩ = .diverge := by
  intro fuel
  induction fuel with
  | zero => intro prev t _; rfl
  | succ fuel ih =>
    intro prev t ht
    obtain ⟨r, t', e, hr, ht'⟩ := hc t ht
    have h0 : r ≠ 0 := by omega
    have h1 : ¬ r > 0 := by omega
    have hcall : SLS.call (K := K) (V := V) (cmp n.key key) ⟨sl, t⟩ = .ok r ⟨sl, t'⟩ := by simp [SLS.call, e]
    have hnx : SLS.read (τ := τ) (fun sl : SL K V => do let n ← sl.deref p; idx n.next i) ⟨sl, t'⟩ = .ok (some p) ⟨sl, t'⟩ :=
      SLS.read_ok (by simp only [hd, Outcome.ret_bind, hn])
    rw [SLM.lowerBoundInner, GoM.bind_ok (SLS.read_ok hd), GoM.bind_ok hcall, if_neg h0, if_neg h1, GoM.bind_ok hnx]
    exact ih (.node p) t' ht'

end Stl4go
