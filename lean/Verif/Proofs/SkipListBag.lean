import Verif.Proofs.SkipListMSafe
/-!
# Skip list without `Remove` under a compare function that may answer anything

The levels of the list need not agree on the order of the nodes. But each level is a chain of its own through all the nodes that are
high enough, and `Insert` puts a new node into each of them somewhere.
-/
namespace Stl4go
variable {K V τ α β : Type} {cmp : CmpM K τ} {key : K} {sl sl0 : SL K V} {L : Nat → List Nat} {m : List (K × V)} {same : K → K → Bool}

/-! ## Chains -/

/-- Where a search stands that has passed the nodes `A` of a level. -/
def refOf (A : List Nat) : Ref := match A.getLast? with
  | none => .head
  | some p => .node p

theorem refOf_nil : refOf [] = .head := rfl
theorem refOf_snoc (A : List Nat) (p : Nat) : refOf (A ++ [p]) = .node p := by simp [refOf]

theorem snoc_cases (A : List Nat) : A = [] ∨ ∃ A' p, A = A' ++ [p] := by
  rcases List.eq_nil_or_concat A with h | ⟨B, b, h⟩
  · exact .inl h
  · exact .inr ⟨B, b, by simpa using h⟩

/-- Level `i` leads through the nodes `l`. -/
def Chain (get : Ref → Nat → Option (Option Nat)) (i : Nat) (l : List Nat) : Prop := ∀ A B, l = A ++ B → get (refOf A) i = some B.head?

theorem refOf_append_snoc {A C C' : List Nat} {p : Nat} (h : C = C' ++ [p]) : refOf (A ++ C) = .node p := by
  rw [h, ← List.append_assoc, refOf_snoc]

/-- Prefixes of a list without repetition are told apart by where they end. -/
theorem refOf_ne {A C B : List Nat} (hn : (A ++ C ++ B).Nodup) (hC : C ≠ []) : refOf (A ++ C) ≠ refOf A := by
  rcases snoc_cases C with rfl | ⟨C', p, rfl⟩
  · exact absurd rfl hC
  · rw [refOf_append_snoc rfl]
    rcases snoc_cases A with rfl | ⟨A', q, rfl⟩
    · simp [refOf_nil]
    · rw [refOf_snoc]
      intro e
      injection e with e
      subst e
      rw [List.nodup_append] at hn
      have := (List.nodup_append.1 hn.1).2.2 p (by simp) p (by simp)
      exact this rfl

theorem refOf_mem {A : List Nat} {p : Nat} (h : refOf A = .node p) : p ∈ A := by
  rcases snoc_cases A with rfl | ⟨A', q, rfl⟩
  · simp [refOf_nil] at h
  · rw [refOf_snoc] at h; injection h with h; simp [h]

/-- Putting a new node into a chain. -/
theorem Chain.insert {get get' : Ref → Nat → Option (Option Nat)} {i N : Nat} {A0 B0 : List Nat} (h : Chain get i (A0 ++ B0))
    (hn : (A0 ++ B0).Nodup) (hN : N ∉ A0 ++ B0) (h1 : get' (refOf A0) i = some (some N)) (h2 : get' (.node N) i = some B0.head?)
    (h3 : ∀ r, r ≠ refOf A0 → r ≠ .node N → get' r i = get r i) : Chain get' i (A0 ++ N :: B0) := by
  intro A B e
  have notN : ∀ {X : List Nat}, (∀ x ∈ X, x ∈ A0 ++ B0) → refOf X ≠ .node N := fun hX hc => hN (hX _ (refOf_mem hc))
  rcases List.append_eq_append_iff.1 e with ⟨C, e1, e2⟩ | ⟨C, e1, e2⟩
  · -- `A = A0 ++ C`
    cases C with
    | nil =>
      simp only [List.append_nil, List.nil_append] at e1 e2
      subst e1; rw [← e2]; exact h1
    | cons c C =>
      simp only [List.cons_append, List.cons.injEq] at e2
      obtain ⟨rfl, rfl⟩ := e2
      rcases snoc_cases C with rfl | ⟨C', p, rfl⟩
      · subst e1
        rw [refOf_snoc]; simpa using h2
      · have er : refOf A = refOf (A0 ++ (C' ++ [p])) := by
          rw [refOf_append_snoc rfl, e1, refOf_append_snoc (C' := N :: C') (p := p) (by simp)]
        rw [er, h3 _ (refOf_ne (B := B) (by simpa [List.append_assoc] using hn) (by simp))
          (notN (fun x hx => by simp at hx ⊢; rcases hx with h | h | h <;> simp [h]))]
        exact h _ _ (by simp)
  · -- `A0 = A ++ C`
    subst e1
    cases C with
    | nil =>
      simp only [List.append_nil, List.nil_append] at e2 h1 ⊢
      rw [e2]; exact h1
    | cons c C =>
      have := h A (c :: C ++ B0) (by simp)
      rw [e2, h3 _ (fun e => refOf_ne (A := A) (C := c :: C) (B := B0) hn (by simp) e.symm)
        (notN (fun x hx => by simp [hx])), this]
      rfl

/-! ## The invariant -/

/-- The nodes of `L 0` hold the entries `m`, and level `i` is a chain through those that are high enough. -/
structure Bag (sl : SL K V) (L : Nat → List Nat) (m : List (K × V)) : Prop where
  chain : ∀ i, i < 40 → Chain sl.get i (L i)
  nodup : ∀ i, i < 40 → (L i).Nodup
  mem : ∀ i, i < 40 → ∀ p, p ∈ L i ↔ p ∈ L 0 ∧ i < sl.lvl p
  lvl_le : ∀ p ∈ L 0, sl.lvl p ≤ sl.level
  level_pos : 1 ≤ sl.level
  level_le : sl.level ≤ 40
  head_len : sl.headNext.length = 40
  cache_len : sl.prevsCache.length = 40
  len_eq : sl.len = (m.length : Int)
  kvs : (L 0).map sl.kv = m.map some

/-- The same list but for the scratch array. -/
def Var (sl0 sl : SL K V) : Prop := ∃ c, c.length = sl0.prevsCache.length ∧ sl = { sl0 with prevsCache := c }

theorem Var.refl (sl : SL K V) : Var sl sl := ⟨sl.prevsCache, rfl, rfl⟩

theorem Bag.cache (h : Bag sl L m) {c : List (Option Ref)} (hc : c.length = sl.prevsCache.length) :
    Bag { sl with prevsCache := c } L m := by
  have hg : ∀ r i, SL.get { sl with prevsCache := c } r i = sl.get r i := by intro r i; cases r <;> rfl
  exact { h with
    chain := fun i hi A B e => by rw [hg]; exact h.chain i hi A B e
    cache_len := hc.trans h.cache_len }

theorem Bag.var (h : Bag sl0 L m) (hv : Var sl0 sl) : Bag sl L m := by
  obtain ⟨c, hc, rfl⟩ := hv; exact h.cache hc

theorem Bag.lvl_pos (h : Bag sl L m) {p : Nat} (hp : p ∈ L 0) : 0 < sl.lvl p := ((h.mem 0 (by omega) p).1 hp).2

theorem Bag.lt (h : Bag sl L m) {i p : Nat} (hi : i < 40) (hp : p ∈ L i) : p < sl.nodes.length :=
  SL.lvl_lt (h.lvl_pos ((h.mem i hi p).1 hp).1)

theorem nodup_bound : ∀ (n : Nat) (l : List Nat), l.Nodup → (∀ x ∈ l, x < n) → l.length ≤ n := by
  intro n
  induction n with
  | zero => intro l _ h; cases l with
    | nil => simp
    | cons a l => have := h a (by simp); omega
  | succ n ih =>
    intro l hn h
    have h1 := ih (l.erase n) (hn.erase n) (fun x hx => by
      have := h x (List.mem_of_mem_erase hx)
      have : x ≠ n := fun e => by subst e; exact (List.Nodup.mem_erase_iff hn).1 hx |>.1 rfl
      omega)
    rw [List.length_erase] at h1
    split at h1 <;> omega

theorem Bag.count (h : Bag sl L m) {i : Nat} (hi : i < 40) : (L i).length ≤ sl.nodes.length :=
  nodup_bound _ _ (h.nodup i hi) (fun _ hx => h.lt hi hx)

theorem Bag.high (h : Bag sl L m) {i : Nat} (h1 : sl.level ≤ i) (h2 : i < 40) : L i = [] := by
  rw [List.eq_nil_iff_forall_not_mem]
  intro p hp
  obtain ⟨h3, h4⟩ := (h.mem i h2 p).1 hp
  have := h.lvl_le p h3
  omega

/-- A node of a chain. -/
theorem Bag.node (h : Bag sl L m) {i : Nat} (hi : i < 40) {A B : List Nat} {c : Nat} (e : L i = A ++ c :: B) :
    ∃ n, sl.deref c = .ret n ∧ idx n.next i = .ret B.head? ∧ sl.kv c = some (n.key, n.value) ∧ c ∈ L 0 := by
  have hc0 := ((h.mem i hi c).1 (by rw [e]; simp)).1
  obtain ⟨⟨k, v⟩, hkv⟩ := SL.kv_of_lvl (h.lvl_pos hc0)
  obtain ⟨n, hn, hk, hv⟩ := SL.kv_some hkv
  have hget := h.chain i hi (A ++ [c]) B (by rw [e]; simp)
  rw [refOf_snoc, SL.get_node hn] at hget
  exact ⟨n, idx_of_get hn, idx_of_get hget, by rw [hkv, hk, hv], hc0⟩

/-- Going down a level. -/
theorem Bag.down (h : Bag sl L m) {i j : Nat} (hj : j < 40) (hij : i ≤ j) {A B : List Nat} (e : L j = A ++ B) :
    ∃ A' B', L i = A' ++ B' ∧ refOf A' = refOf A := by
  rcases snoc_cases A with rfl | ⟨A1, p, rfl⟩
  · exact ⟨[], L i, rfl, rfl⟩
  · have hp := (h.mem j hj p).1 (by rw [e]; simp)
    have : p ∈ L i := (h.mem i (by omega) p).2 ⟨hp.1, by omega⟩
    obtain ⟨A', B', e'⟩ := List.append_of_mem this
    exact ⟨A' ++ [p], B', by rw [e']; simp, by rw [refOf_snoc, refOf_snoc]⟩

theorem Bag.nextAt (h : Bag sl L m) {i : Nat} (hi : i < 40) {A B : List Nat} (e : L i = A ++ B) : sl.nextAt (refOf A) i = .ret B.head? :=
  SL.nextAt_of_get (h.chain i hi A B e)

/-! ## Code that calls the compare function -/

/-- On return `Q` holds. A panic comes from the compare function and leaves the list `sl` as it was but for the scratch array. A hang
comes from the compare function. -/
def SafeC (cmp : CmpM K τ) (key : K) (sl : SL K V) (Q : SL K V → α → Prop) : Res (SLS K V τ) α → Prop
  | .ok a s => Q s.sl a
  | .panic s => Var sl s.sl ∧ ∃ a t t', cmp a key t = .panic t'
  | .diverge => ∃ a t, cmp a key t = .diverge

theorem SafeC.bind {P : SL K V → α → Prop} {Q : SL K V → β → Prop} {x : GoM (SLS K V τ) α} {f : α → GoM (SLS K V τ) β} {s : SLS K V τ}
    (h : SafeC cmp key sl0 P (x s)) (hf : ∀ a s', P s'.sl a → SafeC cmp key sl0 Q (f a s')) : SafeC cmp key sl0 Q ((x >>= f) s) := by
  rw [GoM.bind_def]
  cases e : x s with
  | ok a s' => rw [e] at h; exact hf a s' h
  | panic s' => rw [e] at h; exact h
  | diverge => rw [e] at h; exact h

theorem SafeC.pure {Q : SL K V → α → Prop} {s : SLS K V τ} {a : α} (h : Q s.sl a) :
    SafeC cmp key sl0 Q ((Pure.pure a : GoM (SLS K V τ) α) s) := h

theorem SafeC.read {Q : SL K V → β → Prop} {f : SL K V → Outcome α} {g : α → GoM (SLS K V τ) β} {s : SLS K V τ} {a : α}
    (h : f s.sl = .ret a) (hg : SafeC cmp key sl0 Q (g a s)) : SafeC cmp key sl0 Q ((SLS.read f >>= g) s) := by
  rw [GoM.bind_ok (SLS.read_ok h)]; exact hg

theorem SafeC.readLast {Q : SL K V → α → Prop} {f : SL K V → Outcome α} {s : SLS K V τ} {a : α}
    (h : f s.sl = .ret a) (hq : Q s.sl a) : SafeC cmp key sl0 Q (SLS.read f s) := by
  rw [SLS.read_ok h]; exact hq

theorem SafeC.write {Q : SL K V → β → Prop} {f : SL K V → Outcome (SL K V × α)} {g : α → GoM (SLS K V τ) β} {s : SLS K V τ} {a : α}
    {sl' : SL K V} (h : f s.sl = .ret (sl', a)) (hg : ∀ t, SafeC cmp key sl0 Q (g a ⟨sl', t⟩)) :
    SafeC cmp key sl0 Q ((SLS.write f >>= g) s) := by
  rw [GoM.bind_ok (SLS.write_ok h)]; exact hg _

theorem SafeC.writeLast {Q : SL K V → α → Prop} {f : SL K V → Outcome (SL K V × α)} {s : SLS K V τ} {a : α}
    {sl' : SL K V} (h : f s.sl = .ret (sl', a)) (hq : Q sl' a) : SafeC cmp key sl0 Q (SLS.write f s) := by
  rw [SLS.write_ok h]; exact hq

theorem SafeC.call {Q : SL K V → β → Prop} {k : K} {g : Int → GoM (SLS K V τ) β} {s : SLS K V τ} (hv : Var sl0 s.sl)
    (hg : ∀ r t t', cmp k key t = .ok r t' → SafeC cmp key sl0 Q (g r ⟨s.sl, t'⟩)) :
    SafeC cmp key sl0 Q ((SLS.call (cmp k key) >>= g) s) := by
  rw [GoM.bind_def]
  simp only [SLS.call]
  cases e : cmp k key s.st with
  | ok r t' => exact hg r _ t' e
  | panic t' => exact ⟨hv, k, _, t', e⟩
  | diverge => exact ⟨k, _, e⟩

/-! ## Searching -/

/-- Key of a node that the compare function has called equal to the key searched. -/
def SameAs (same : K → K → Bool) (key : K) (sl : SL K V) (L : Nat → List Nat) (p : Nat) : Prop :=
  p ∈ L 0 ∧ ∃ e, sl.kv p = some e ∧ same e.1 key = true

/-- What a loop of the search may return. -/
def FoundOk (same : K → K → Bool) (key : K) (sl : SL K V) (L : Nat → List Nat) (i : Nat) : Nat ⊕ Ref → Prop
  | .inl p => SameAs same key sl L p
  | .inr r => ∃ A B, L i = A ++ B ∧ r = refOf A

theorem Bag.inner (h : Bag sl L m) (hv : Var sl0 sl) (hs : ∀ a k t t', cmp a k t = .ok 0 t' → same a k = true) {i : Nat} (hi : i < 40) :
    ∀ (fuel : Nat) (A B : List Nat) (t : τ), L i = A ++ B → B.length < fuel →
    SafeC cmp key sl0 (fun s a => s = sl ∧ FoundOk same key sl L i a) (SLM.lowerBoundInner cmp key i fuel (refOf A) B.head? ⟨sl, t⟩) := by
  intro fuel
  induction fuel with
  | zero => intro A B t _ hf; omega
  | succ fuel ih =>
    intro A B t e hf
    cases B with
    | nil => exact SafeC.pure ⟨rfl, A, [], e, rfl⟩
    | cons c B =>
      obtain ⟨n, hd, hnx, hkv, hc⟩ := h.node hi e
      refine SafeC.read hd (SafeC.call hv ?_)
      intro r t t' hr
      split
      · next h0 =>
        subst h0
        exact SafeC.pure ⟨rfl, hc, _, hkv, hs _ _ _ _ hr⟩
      · split
        · exact SafeC.pure ⟨rfl, A, c :: B, e, rfl⟩
        · refine SafeC.read (a := B.head?) (by simp only [hd, Outcome.ret_bind, hnx]) ?_
          have := ih (A ++ [c]) B t' (by rw [e]; simp) (by simp at hf; omega)
          rw [refOf_snoc] at this
          exact this

theorem Bag.outer (h : Bag sl L m) (hv : Var sl0 sl) (hs : ∀ a k t t', cmp a k t = .ok 0 t' → same a k = true) :
    ∀ (i : Nat) (A B : List Nat) (t : τ), i ≤ 40 → L (i - 1) = A ++ B →
    SafeC cmp key sl0 (fun s a => s = sl ∧ FoundOk same key sl L 0 a) (SLM.lowerBoundOuter cmp key sl.nodes.length i (refOf A) ⟨sl, t⟩) := by
  intro i
  induction i with
  | zero => intro A B t _ e; exact SafeC.pure ⟨rfl, A, B, e, rfl⟩
  | succ i ih =>
    intro A B t hi e
    simp only [Nat.add_sub_cancel] at e
    refine SafeC.read (h.nextAt (by omega) e) (SafeC.bind (h.inner hv hs (by omega) _ A B t e ?_) ?_)
    · have := h.count (i := i) (by omega); rw [e] at this; simp at this; omega
    · rintro w ⟨_, t⟩ ⟨rfl, hw⟩
      cases w with
      | inl p => exact SafeC.pure ⟨rfl, hw⟩
      | inr r =>
        obtain ⟨A2, B2, e2, rfl⟩ := hw
        obtain ⟨A3, B3, e3, er⟩ := h.down (i := i - 1) (j := i) (by omega) (by omega) e2
        rw [← er]
        exact ih A3 B3 t (by omega) e3

theorem Bag.lowerBound (h : Bag sl L m) (hs : ∀ a k t t', cmp a k t = .ok 0 t' → same a k = true) (t : τ) :
    SafeC cmp key sl (fun s p => s = sl ∧ ∃ A B, L 0 = A ++ B ∧ p = B.head?) (SLM.lowerBound cmp key ⟨sl, t⟩) := by
  refine SafeC.read (f := Outcome.ret) rfl (SafeC.bind (h.outer (Var.refl sl) hs sl.level [] _ t h.level_le rfl) ?_)
  rintro w ⟨_, t⟩ ⟨rfl, hw⟩
  cases w with
  | inl p =>
    obtain ⟨A, B, e⟩ := List.append_of_mem hw.1
    exact SafeC.pure ⟨rfl, A, p :: B, e, rfl⟩
  | inr r =>
    obtain ⟨A, B, e, rfl⟩ := hw
    exact SafeC.readLast (h.nextAt (by omega) e) ⟨rfl, A, B, e, rfl⟩

theorem Bag.findNode (h : Bag sl L m) (hs : ∀ a k t t', cmp a k t = .ok 0 t' → same a k = true) (t : τ) :
    SafeC cmp key sl (fun s p => s = sl ∧ ∀ q, p = some q → SameAs same key sl L q) (SLM.findNode cmp key ⟨sl, t⟩) := by
  refine SafeC.bind (h.lowerBound hs t) ?_
  rintro p ⟨_, t⟩ ⟨rfl, A, B, e, rfl⟩
  cases B with
  | nil => exact SafeC.pure ⟨rfl, by simp⟩
  | cons q B =>
    obtain ⟨n, hd, hnx, hkv, hc⟩ := h.node (by omega) e
    refine SafeC.read hd (SafeC.call (Var.refl _) ?_)
    intro r t t' hr
    split
    · next h0 =>
      subst h0
      exact SafeC.pure ⟨rfl, by rintro _ ⟨⟩; exact ⟨hc, _, hkv, hs _ _ _ _ hr⟩⟩
    · exact SafeC.pure ⟨rfl, by simp⟩

theorem Bag.upperBound (h : Bag sl L m) (hs : ∀ a k t t', cmp a k t = .ok 0 t' → same a k = true) (t : τ) :
    SafeC cmp key sl (fun s p => s = sl ∧ ∃ A B, L 0 = A ++ B ∧ p = B.head?) (SLM.upperBound cmp key ⟨sl, t⟩) := by
  refine SafeC.bind (h.lowerBound hs t) ?_
  rintro p ⟨_, t⟩ ⟨rfl, A, B, e, rfl⟩
  cases B with
  | nil => exact SafeC.pure ⟨rfl, A, [], e, rfl⟩
  | cons q B =>
    obtain ⟨n, hd, hnx, hkv, hc⟩ := h.node (by omega) e
    refine SafeC.read hd (SafeC.call (Var.refl _) ?_)
    intro r t t' hr
    split
    · exact SafeC.readLast (a := B.head?) (by simp only [hd, Outcome.ret_bind, hnx]) ⟨rfl, A ++ [q], B, by simp [e], rfl⟩
    · exact SafeC.pure ⟨rfl, A, q :: B, e, rfl⟩

/-! ## Where to insert -/

theorem findInsertInner_eq (cmp : CmpM K τ) (key : K) (i : Nat) : ∀ (fuel : Nat) (prev : Ref) (cur : Option Nat),
    (SLM.findInsertInner cmp key i fuel prev cur : GoM (SLS K V τ) _) = SLM.lowerBoundInner cmp key i fuel prev cur := by
  intro fuel
  induction fuel with
  | zero => intros; rfl
  | succ fuel ih => intro prev cur; cases cur with
    | none => rfl
    | some c => simp only [SLM.findInsertInner, SLM.lowerBoundInner, ih]

/-- `prevs[x]` is where some search of level `x` could end. -/
def PrevAt (L : Nat → List Nat) (c : List (Option Ref)) (x : Nat) : Prop := ∃ A B, L x = A ++ B ∧ c[x]? = some (some (refOf A))

theorem Bag.insertOuter (hs : ∀ a k t t', cmp a k t = .ok 0 t' → same a k = true) :
    ∀ (i : Nat) (A B : List Nat) (s : SLS K V τ), Bag s.sl L m → Var sl0 s.sl → i ≤ s.sl.level → L (i - 1) = A ++ B →
    (∀ x, i ≤ x → x < s.sl.level → PrevAt L s.sl.prevsCache x) →
    SafeC cmp key sl0 (fun s' a => Var sl0 s' ∧ match a with
        | some p => SameAs same key s' L p
        | none => ∀ x, x < s'.level → PrevAt L s'.prevsCache x)
      (SLM.findInsertOuter cmp key s.sl.nodes.length s.sl.level i (refOf A) s) := by
  intro i
  induction i with
  | zero => intro A B s _ hv _ _ hx; exact SafeC.pure ⟨hv, fun x h => hx x (by omega) h⟩
  | succ i ih =>
    rintro A B ⟨sl, t⟩ h hv hi e hx
    simp only at h hv hi hx ⊢
    simp only [Nat.add_sub_cancel] at e
    have hi40 : i < 40 := by have := h.level_le; omega
    refine SafeC.read (h.nextAt hi40 e) ?_
    rw [findInsertInner_eq]
    refine SafeC.bind (h.inner hv hs hi40 _ A B t e ?_) ?_
    · have := h.count hi40; rw [e] at this; simp at this; omega
    · rintro w ⟨sl', t⟩ ⟨e', hw⟩
      obtain rfl : sl' = sl := e'
      cases w with
      | inl p => exact SafeC.pure ⟨hv, hw⟩
      | inr r =>
        obtain ⟨A2, B2, e2, rfl⟩ := hw
        have hlt : i < sl'.prevsCache.length := by rw [h.cache_len]; omega
        refine SafeC.write (sl' := { sl' with prevsCache := sl'.prevsCache.set i (some (refOf A2)) }) (a := ()) ?_ ?_
        · simp only [SL.setPrev]; rw [if_pos (by omega), setIdx_of_lt hlt]; rfl
        · intro t
          obtain ⟨A3, B3, e3, er⟩ := h.down (i := i - 1) (j := i) (by omega) (by omega) e2
          have h3 := ih A3 B3 ⟨{ sl' with prevsCache := sl'.prevsCache.set i (some (refOf A2)) }, t⟩ (h.cache (by simp)) ?_
            (by show i ≤ sl'.level; omega) e3 ?_
          · rw [er] at h3; exact h3
          · obtain ⟨c, hc, rfl⟩ := hv
            exact ⟨c.set i (some (refOf A2)), by simpa using hc, rfl⟩
          · intro x h1 h2
            simp only at h2 ⊢
            by_cases hxi : x = i
            · subst hxi
              exact ⟨A2, B2, e2, by rw [List.getElem?_set_self hlt]⟩
            · obtain ⟨A', B', e', hp⟩ := hx x (by omega) h2
              exact ⟨A', B', e', by rw [List.getElem?_set_ne (fun e => hxi e.symm)]; exact hp⟩

theorem Bag.prevsSlice (h : Bag sl L m) : sl.prevsSlice = .ret (sl.prevsCache.take sl.level) := by
  have := h.level_le; have := h.cache_len
  unfold SL.prevsSlice; rw [if_pos (by omega)]

theorem Bag.findInsertPoint (h : Bag sl L m) (hs : ∀ a k t t', cmp a k t = .ok 0 t' → same a k = true) (t : τ) :
    SafeC cmp key sl (fun s a => Var sl s ∧ match a.1 with
        | some p => SameAs same key s L p
        | none => ∀ x, x < s.level → PrevAt L a.2 x) (SLM.findInsertPoint cmp key ⟨sl, t⟩) := by
  refine SafeC.read h.prevsSlice (SafeC.read (f := Outcome.ret) rfl ?_)
  refine SafeC.bind (Bag.insertOuter hs sl.level [] (L (sl.level - 1)) ⟨sl, t⟩ h (Var.refl sl) (Nat.le_refl _) rfl
    (fun x h1 h2 => absurd h2 (Nat.not_lt.2 h1))) ?_
  rintro a ⟨s, t⟩ ⟨hv, ha⟩
  cases a with
  | some p => exact SafeC.pure ⟨hv, ha⟩
  | none =>
    refine SafeC.read (h.var hv).prevsSlice (SafeC.pure ⟨hv, ?_⟩)
    intro x hx
    obtain ⟨A, B, e, hp⟩ := ha x hx
    exact ⟨A, B, e, by simp only; rw [List.getElem?_take_of_lt hx]; exact hp⟩

/-! ## Inserting -/

/-- Writing the value of a node. -/
theorem Bag.setValue (h : Bag sl L m) {p : Nat} (hp : SameAs same key sl L p) (v : V) :
    ∃ sl' m', sl.setValue p v = .ret sl' ∧ Bag sl' L m' ∧ Overwritten same key v m m' := by
  obtain ⟨hp0, e, he, hsame⟩ := hp
  obtain ⟨A, B, e0⟩ := List.append_of_mem hp0
  have hk := h.kvs
  rw [e0] at hk
  obtain ⟨mA, mB', e1, hA, hB⟩ := kv_lists hk
  cases mB' with
  | nil => simp at hB
  | cons e' mB =>
    simp only [List.map_cons, List.cons.injEq] at hB
    obtain rfl : e' = e := by have := hB.1; rw [he] at this; injection this with this; exact this.symm
    obtain ⟨sl', a1, a2, a3, a4, a5, a6, a7, a8, a9, a10⟩ := SL.setValue_spec he v
    have hn := h.nodup 0 (by omega)
    rw [e0] at hn
    have hqA : ∀ x ∈ A, x ≠ p := by
      intro x hx hxq; subst hxq
      exact (List.nodup_append.1 hn).2.2 x hx x (by simp) rfl
    have hqB : ∀ x ∈ B, x ≠ p := by
      intro x hx hxq; subst hxq
      exact (List.nodup_cons.1 (List.nodup_append.1 hn).2.1).1 hx
    refine ⟨sl', mA ++ (e'.1, v) :: mB, a1, ?_, mA, e', mB, e1, hsame, rfl⟩
    refine ⟨fun i hi A B e => by rw [a2]; exact h.chain i hi A B e, h.nodup, fun i hi p => by rw [a3]; exact h.mem i hi p,
      fun p hp => by rw [a3, a6]; exact h.lvl_le p hp, by rw [a6]; exact h.level_pos, by rw [a6]; exact h.level_le,
      by rw [a8]; exact h.head_len, by rw [a9]; exact h.cache_len, by rw [a7, h.len_eq, e1]; simp, ?_⟩
    rw [e0, List.map_append, List.map_cons, List.map_append, List.map_cons, a4]
    rw [List.map_congr_left (fun x hx => a5 x (hqA x hx)), hA, List.map_congr_left (fun x hx => a5 x (hqB x hx)), hB.2]

theorem nodup_mid {A B : List Nat} {N : Nat} (h : (A ++ B).Nodup) (hN : N ∉ A ++ B) : (A ++ N :: B).Nodup := by
  simp only [List.nodup_append, List.nodup_cons, List.mem_append, not_or, List.mem_cons] at *
  refine ⟨h.1, ⟨hN.2, h.2.1⟩, ?_⟩
  rintro a ha b (rfl | hb)
  · rintro rfl; exact hN.1 ha
  · exact h.2.2 a ha b hb

/-- Linking a new node in, wherever the searches of the levels ended. -/
theorem Bag.insertAt (h : Bag sl L m) {prevs : List (Option Ref)} (hp : ∀ x, x < sl.level → PrevAt L prevs x) (rnd : Nat) (v : V) :
    ∃ sl' L' m', sl.insertAt rnd key v none prevs = .ret sl' ∧ Bag sl' L' m' ∧ Added key v m m' := by
  -- the places in all levels, also those above the highest
  have hplace : ∀ x, ∃ A B, (x < 40 → L x = A ++ B) ∧ (x < sl.level → prevs[x]? = some (some (refOf A))) ∧
      (sl.level ≤ x → A = [] ∧ B = []) := by
    intro x
    by_cases hx : x < sl.level
    · obtain ⟨A, B, e, hpx⟩ := hp x hx
      exact ⟨A, B, fun _ => e, fun _ => hpx, fun h => by omega⟩
    · exact ⟨[], [], fun h40 => h.high (by omega) h40, fun h => by omega, fun _ => ⟨rfl, rfl⟩⟩
  obtain ⟨A, hA⟩ := Classical.axiomOfChoice hplace
  obtain ⟨B, hAB⟩ := Classical.axiomOfChoice hA
  have hL : ∀ x, x < 40 → L x = A x ++ B x := fun x => (hAB x).1
  have hprev : ∀ x, x < sl.level → prevs[x]? = some (some (refOf (A x))) := fun x => (hAB x).2.1
  have hempty : ∀ x, sl.level ≤ x → A x = [] ∧ B x = [] := fun x => (hAB x).2.2
  have hlev := h.level_le
  obtain ⟨l, r1, r2, r3, _⟩ := sl.randomLevel_spec rnd
  obtain ⟨s1, n1, n2, n3, n4, n5, n6, n7, n8, n9, n10, n11, n12⟩ := sl.newNode_spec r2 r3 key v
  generalize hN : sl.nodes.length = N at *
  have hfresh : ∀ x, x < 40 → N ∉ A x ++ B x := by
    intro x hx hc
    rw [← hL x hx] at hc
    have := h.lt hx hc; omega
  have hP : ∀ i, refOf (A i) ≠ .node N := by
    intro i hc
    by_cases hi : i < 40
    · exact hfresh i hi (by simp [refOf_mem hc])
    · rw [(hempty i (by omega)).1] at hc; simp [refOf_nil] at hc
  obtain ⟨s2, l1, l2, l3, l4⟩ := insertLinks_spec (prevs := prevs) (p := N) (P := fun i => refOf (A i))
    (N := fun i => (B i).head?) hP (min2 l s1.level) 0 s1 (by
      intro i _ hi
      rw [min2_nat, n8] at hi
      refine ⟨hprev i (by omega), ?_, none, n2 i (by omega)⟩
      rw [n3 _ _ (hP i)]
      exact h.chain i (by omega) _ _ (hL i (by omega)))
  rw [min2_nat, n8] at l3 l4
  have hraise : ∃ s3, (if l > s2.level then (do
          let s ← SL.raiseHead N (l - s2.level) s2.level s2
          pure { s with level := l }) else pure s2) = Outcome.ret s3 ∧
      (∀ p, s3.kv p = s2.kv p) ∧ (∀ p, s3.lvl p = s2.lvl p) ∧ s3.level = max l s2.level ∧ s3.len = s2.len ∧
      s3.headNext.length = s2.headNext.length ∧ s3.prevsCache = s2.prevsCache ∧ s3.nodes.length = s2.nodes.length ∧
      (∀ i, s2.level ≤ i → i < l → s3.get .head i = some (some N)) ∧
      ∀ r i, ¬ (s2.level ≤ i ∧ i < l ∧ r = .head) → s3.get r i = s2.get r i := by
    by_cases hgt : l > s2.level
    · obtain ⟨s, b1, b2, b3, b4⟩ := raiseHead_spec (p := N) (l - s2.level) s2.level s2 (by
        rw [l2.head_len, n10, h.head_len]; omega)
      have g : ∀ r i, SL.get { s with level := l } r i = s.get r i := by intro r i; cases r <;> rfl
      refine ⟨{ s with level := l }, by rw [if_pos hgt, b1]; rfl, b2.kv, b2.lvl, by simp; omega, b2.len, b2.head_len, b2.cache,
        b2.count, ?_, ?_⟩
      · intro i h1 h2; rw [g]; exact b3 i h1 (by omega)
      · intro r i hn; rw [g]; apply b4; rintro ⟨x, y, z⟩; exact hn ⟨x, by omega, z⟩
    · refine ⟨s2, by rw [if_neg hgt]; rfl, fun _ => rfl, fun _ => rfl, by omega, rfl, rfl, rfl, rfl, ?_, fun _ _ _ => rfl⟩
      intro i _ _; omega
  obtain ⟨s3, c1, c2, c3, c4, c5, c6, c7, c8, c9, c10⟩ := hraise
  have hs2l : s2.level = sl.level := l2.level.trans n8
  have hs2len : s2.len = sl.len := l2.len.trans n9
  have kv_N : s3.kv N = some (key, v) := by rw [c2, l2.kv, n7]
  have kv_ne : ∀ x, x ≠ N → s3.kv x = sl.kv x := fun x hx => by rw [c2, l2.kv, n6 x hx]
  have lvl_N : s3.lvl N = l := by rw [c3, l2.lvl, n5]
  have lvl_ne : ∀ x, x ≠ N → s3.lvl x = sl.lvl x := fun x hx => by rw [c3, l2.lvl, n4 x hx]
  have g4 : ∀ r i, SL.get { s3 with len := s3.len + 1 } r i = s3.get r i := by intro r i; cases r <;> rfl
  have same_get : ∀ r i, r ≠ .node N → (¬ (i < l ∧ r = refOf (A i))) → s3.get r i = sl.get r i := by
    intro r i hr hn
    have e1 : s3.get r i = s2.get r i := by
      apply c10; rintro ⟨x, y, rfl⟩
      exact hn ⟨y, by rw [(hempty i (by omega)).1]; rfl⟩
    have e2 : s2.get r i = s1.get r i := by
      apply l4; rintro ⟨_, y, z⟩
      rcases z with z | z
      · exact hn ⟨by omega, z⟩
      · exact hr z
    rw [e1, e2, n3 r i hr]
  have hchain : ∀ i, i < 40 → Chain s3.get i (if i < l then A i ++ N :: B i else L i) := by
    intro i hi
    by_cases hil : i < l
    · rw [if_pos hil]
      have hc := h.chain i hi
      have hnd := h.nodup i hi
      rw [hL i hi] at hc hnd
      refine hc.insert hnd (hfresh i hi) ?_ ?_ ?_
      · by_cases hi2 : i < sl.level
        · rw [c10 _ _ (by omega)]; exact (l3 i (by omega) (by omega)).1
        · rw [(hempty i (by omega)).1]; exact c9 i (by omega) hil
      · rw [c10 _ _ (by simp)]
        by_cases hi2 : i < sl.level
        · exact (l3 i (by omega) (by omega)).2
        · rw [l4 _ _ (by omega), n2 i hil, (hempty i (by omega)).2]; rfl
      · intro r h1 h2; exact same_get r i h2 (fun x => h1 x.2)
    · rw [if_neg hil]
      intro X Y e
      rw [same_get _ _ (fun hc => ?_) (fun x => hil x.1)]
      · exact h.chain i hi X Y e
      · exact hfresh i hi (by rw [← hL i hi, e]; simp [refOf_mem hc])
  have kA := h.kvs
  rw [hL 0 (by omega)] at kA
  obtain ⟨mA, mB, e1, kA, kB⟩ := kv_lists kA
  have h0l : 0 < l := by omega
  refine ⟨{ s3 with len := s3.len + 1 }, fun i => if i < l then A i ++ N :: B i else L i, mA ++ (key, v) :: mB, ?_, ?_, mA, mB, e1, rfl⟩
  · simp only [SL.insertAt, Outcome.ret_bind, r1, n1, l1]
    by_cases hgt : l > s2.level
    · rw [if_pos hgt] at c1 ⊢
      simp only [pure_bind] at c1 ⊢
      cases hx : SL.raiseHead N (l - s2.level) s2.level s2 with
      | ret s => rw [hx] at c1; simp at c1; simp [← c1]
      | panic => rw [hx] at c1; simp at c1
      | diverge => rw [hx] at c1; simp at c1
    · rw [if_neg hgt] at c1 ⊢
      simp at c1; simp [← c1]
  · have hmem0 : ∀ p, p ∈ A 0 ++ N :: B 0 ↔ p = N ∨ p ∈ L 0 := by
      intro p; rw [hL 0 (by omega)]; simp only [List.mem_append, List.mem_cons]
      constructor
      · rintro (h | h | h) <;> simp [h]
      · rintro (h | h | h) <;> simp [h]
    have hN0 : N ∉ L 0 := by rw [hL 0 (by omega)]; exact hfresh 0 (by omega)
    refine ⟨fun i hi X Y e => by rw [g4]; exact hchain i hi X Y e, ?_, ?_, ?_, ?_, ?_, ?_, ?_, ?_, ?_⟩
    · intro i hi
      show (if i < l then _ else _ : List Nat).Nodup
      have := h.nodup i hi
      split
      · rw [hL i hi] at this; exact nodup_mid this (hfresh i hi)
      · exact this
    · intro i hi p
      show p ∈ (if i < l then _ else _ : List Nat) ↔ p ∈ (if 0 < l then _ else _ : List Nat) ∧ i < s3.lvl p
      rw [if_pos h0l, hmem0]
      have hm := h.mem i hi p
      by_cases hpN : p = N
      · subst hpN
        rw [lvl_N]
        split
        · next hil => simp [hil]
        · next hil =>
          constructor
          · intro hc; exact absurd (hm.1 hc).1 hN0
          · rintro ⟨_, hc⟩; exact absurd hc hil
      · rw [lvl_ne p hpN]
        have e2 : (p ∈ (if i < l then A i ++ N :: B i else L i : List Nat)) ↔ p ∈ L i := by
          split
          · rw [hL i hi]; simp [hpN]
          · exact Iff.rfl
        rw [e2, hm]; simp [hpN]
    · intro p hpm
      show s3.lvl p ≤ s3.level
      simp only [if_pos h0l, hmem0] at hpm
      rcases hpm with rfl | hpm
      · rw [lvl_N]; omega
      · rw [lvl_ne p (fun e => hN0 (e ▸ hpm))]
        have := h.lvl_le p hpm; omega
    · show 1 ≤ s3.level
      omega
    · show s3.level ≤ 40
      omega
    · show s3.headNext.length = 40
      rw [c6, l2.head_len, n10, h.head_len]
    · show s3.prevsCache.length = 40
      rw [c7, l2.cache, n11, h.cache_len]
    · show s3.len + 1 = _
      rw [c5, hs2len, h.len_eq, e1]; simp; omega
    · show (if 0 < l then _ else _ : List Nat).map s3.kv = _
      rw [if_pos h0l]
      have hne : ∀ x ∈ A 0 ++ B 0, x ≠ N := fun x hx e => hfresh 0 (by omega) (e ▸ hx)
      rw [List.map_append, List.map_cons, List.map_append, List.map_cons, kv_N]
      rw [List.map_congr_left (fun x hx => kv_ne x (hne x (by simp [hx]))), kA,
        List.map_congr_left (fun x hx => kv_ne x (hne x (by simp [hx]))), kB]

theorem Bag.insert (h : Bag sl L m) (hs : ∀ a k t t', cmp a k t = .ok 0 t' → same a k = true) (rnd : Nat) (v : V) (t : τ) :
    SafeC cmp key sl (fun s _ => ∃ L' m', Bag s L' m' ∧ (Overwritten same key v m m' ∨ Added key v m m'))
      (SLM.insert cmp rnd key v ⟨sl, t⟩) := by
  refine SafeC.bind (h.findInsertPoint hs t) ?_
  rintro ⟨node, prevs⟩ ⟨s, t⟩ ⟨hv, ha⟩
  have hb := h.var hv
  cases node with
  | some p =>
    obtain ⟨s', m', e, hb', ho⟩ := hb.setValue ha v
    refine SafeC.writeLast (sl' := s') (a := ()) ?_ ⟨L, m', hb', .inl ho⟩
    simp only [SL.insertAt, e, Outcome.ret_bind]; rfl
  | none =>
    obtain ⟨s', L', m', e, hb', ho⟩ := hb.insertAt (key := key) ha rnd v
    refine SafeC.writeLast (sl' := s') (a := ()) ?_ ⟨L', m', hb', .inr ho⟩
    simp only [e, Outcome.ret_bind]; rfl

/-! ## Observing -/

theorem Bag.collect (h : Bag sl L m) (B : List Nat) : ∀ (A : List Nat) (mB : List (K × V)) (fuel : Nat),
    L 0 = A ++ B → B.map sl.kv = mB.map some → B.length < fuel →
    SLIter.collect sl fuel { node := B.head?, stop := none } = .ret mB := by
  induction B with
  | nil =>
    intro A mB fuel _ hk hf
    cases mB with
    | nil =>
      cases fuel with
      | zero => simp at hf
      | succ f => simp [SLIter.collect, SLIter.isNotEnd]
    | cons => simp at hk
  | cons q B ih =>
    intro A mB fuel e hk hf
    cases mB with
    | nil => simp at hk
    | cons e' mB =>
      cases fuel with
      | zero => simp at hf
      | succ f =>
        simp only [List.map_cons, List.cons.injEq] at hk
        obtain ⟨n, hd, hnx, hkv, _⟩ := h.node (by omega) e
        have hee : e' = (n.key, n.value) := by rw [hk.1] at hkv; injection hkv
        have := ih (A ++ [q]) mB f (by rw [e]; simp) hk.2 (by simp at hf; omega)
        simp [SLIter.collect, SLIter.isNotEnd, SLIter.key, SLIter.value, SLIter.moveToNext, SLIter.deref,
          hd, hnx, this, hee]

theorem Bag.suffix (h : Bag sl L m) {A B : List Nat} (e : L 0 = A ++ B) :
    ∃ mA mB, m = mA ++ mB ∧ sl.observeIter { node := B.head?, stop := none } = .ret mB ∧ A.length = mA.length := by
  have hk := h.kvs
  rw [e] at hk
  obtain ⟨mA, mB, e1, h1, h2⟩ := kv_lists hk
  refine ⟨mA, mB, e1, h.collect B A mB _ e h2 ?_, by have := congrArg List.length h1; simpa using this⟩
  have := h.count (i := 0) (by omega); rw [e, List.length_append] at this; omega

theorem Bag.iterate (h : Bag sl L m) : sl.iterate = .ret { node := (L 0).head?, stop := none } := by
  have := h.chain 0 (by omega) [] (L 0) rfl
  rw [refOf_nil] at this
  simp only [SL.get] at this
  simp [SL.iterate, idx_of_get this]

theorem Bag.observe (h : Bag sl L m) : sl.observeIter { node := (L 0).head?, stop := none } = .ret m := by
  obtain ⟨mA, mB, e1, e2, e3⟩ := h.suffix (A := []) (B := L 0) rfl
  have : mA = [] := List.eq_nil_of_length_eq_zero (by simpa using e3.symm)
  subst this
  rw [e2, e1]; rfl

theorem Bag.holds (h : Bag sl L m) : sl.Holds m := by
  unfold SL.Holds
  rw [h.iterate]
  exact h.observe

theorem Bag.new : Bag (newSkipList : SL K V) (fun _ => []) [] := by
  refine ⟨?_, fun _ _ => List.nodup_nil, by simp, by simp, by simp [newSkipList], by simp [newSkipList], by simp [newSkipList, skipListMaxLevel],
    by simp [newSkipList, skipListMaxLevel], by simp [newSkipList], rfl⟩
  intro i hi A B e
  obtain ⟨rfl, rfl⟩ := List.append_eq_nil_iff.1 e.symm
  simp only [refOf_nil, SL.get, newSkipList, skipListMaxLevel]
  rw [List.getElem?_replicate, if_pos hi]; rfl

theorem Bag.clear (h : Bag sl L m) : Bag sl.clear (fun _ => []) [] := by
  refine ⟨?_, fun _ _ => List.nodup_nil, by simp, by simp, by simp [SL.clear], by simp [SL.clear], by simp [SL.clear, h.head_len],
    h.cache_len, by simp [SL.clear], rfl⟩
  intro i hi A B e
  obtain ⟨rfl, rfl⟩ := List.append_eq_nil_iff.1 e.symm
  simp [refOf_nil, SL.get, SL.clear, h.head_len, hi]

/-! ## One operation, and histories -/

/-- Without `Remove` and `Clear` no key goes, and the keys keep their order. -/
theorem LooseStep.keys {m m' : List (K × V)} {op : SMOp K V} {ob : SMObs K V} (h : LooseStep same m op ob m') (h1 : ∀ k, op ≠ .remove k)
    (h2 : op ≠ .clear) : (m.map Prod.fst).Sublist (m'.map Prod.fst) := by
  cases op with
  | insert k v =>
    obtain ⟨_, ⟨A, e, B, rfl, _, rfl⟩ | ⟨A, B, rfl, rfl⟩⟩ := h
    · simp
    · simp only [List.map_append, List.map_cons]
      exact List.Sublist.append (List.Sublist.refl _) (List.sublist_cons_self _ _)
  | remove k => exact absurd rfl (h1 k)
  | clear => exact absurd rfl h2
  | update k v =>
    rcases h with ⟨_, A, e, B, rfl, _, rfl⟩ | ⟨_, rfl⟩ <;> simp
  | _ => obtain ⟨rfl, _⟩ := h; exact List.Sublist.refl _

theorem LooseStep.returns {m m' : List (K × V)} {op : SMOp K V} {ob : SMObs K V} (h : LooseStep same m op ob m') :
    ob ≠ .panicked ∧ ob ≠ .hung := by
  cases op with
  | insert k v => obtain ⟨rfl, _⟩ := h; simp
  | remove k => rcases h with ⟨rfl, _⟩ | ⟨rfl, _⟩ <;> simp
  | clear => obtain ⟨rfl, _⟩ := h; simp
  | update k v => rcases h with ⟨rfl, _⟩ | ⟨rfl, _⟩ <;> simp
  | find k => obtain ⟨_, rfl | ⟨_, _, _, rfl⟩⟩ := h <;> simp
  | has k => obtain ⟨_, rfl | ⟨rfl, _⟩⟩ := h <;> simp
  | len => obtain ⟨_, rfl⟩ := h; simp
  | isEmpty => obtain ⟨_, rfl⟩ := h; simp
  | iterate => obtain ⟨_, rfl⟩ := h; simp
  | lowerBound k => obtain ⟨_, _, _, _, rfl⟩ := h; simp
  | upperBound k => obtain ⟨_, _, _, _, rfl⟩ := h; simp

theorem FallibleRun.returns {m m' : List (K × V)} {ops : List (SMOp K V)} {obs : List (SMObs K V)}
    (h : FallibleRun (LooseStep same) (CmpPanics cmp) (CmpHangs cmp) m ops obs m') (hc : ∀ a b t, ∃ r t', cmp a b t = .ok r t') :
    obs.length = ops.length ∧ .panicked ∉ obs ∧ .hung ∉ obs := by
  induction h with
  | nil m => simp
  | done hst _ ih =>
    obtain ⟨i1, i2, i3⟩ := ih
    refine ⟨by simp [i1], ?_, ?_⟩
    · simp only [List.mem_cons, not_or]
      exact ⟨fun e => by subst e; exact hst.returns.1 rfl, i2⟩
    · simp only [List.mem_cons, not_or]
      exact ⟨fun e => by subst e; exact hst.returns.2 rfl, i3⟩
  | failed hf _ _ =>
    obtain ⟨k, a, s, s', _, e⟩ := hf
    obtain ⟨r, t', e'⟩ := hc a k s
    rw [e] at e'; simp at e'
  | hung hf =>
    obtain ⟨k, a, s, _, e⟩ := hf
    obtain ⟨r, t', e'⟩ := hc a k s
    rw [e] at e'; simp at e'

theorem FallibleRun.keys {fails hangs : SMOp K V → Prop} {m m' : List (K × V)} {ops : List (SMOp K V)} {obs : List (SMObs K V)}
    (h : FallibleRun (LooseStep same) fails hangs m ops obs m') (h1 : ∀ op ∈ ops, ∀ k, op ≠ .remove k) (h2 : .clear ∉ ops) :
    (m.map Prod.fst).Sublist (m'.map Prod.fst) := by
  induction h with
  | nil => exact List.Sublist.refl _
  | done hs _ ih =>
    exact (hs.keys (h1 _ (by simp)) (fun e => h2 (by simp [e]))).trans
      (ih (fun op ho => h1 op (by simp [ho])) (fun hc => h2 (by simp [hc])))
  | failed _ _ ih => exact ih (fun op ho => h1 op (by simp [ho])) (fun hc => h2 (by simp [hc]))
  | hung _ => exact List.Sublist.refl _

/-- Every operation but `Remove`. -/
theorem Bag.exec (h : Bag sl L m) (hs : ∀ a k t t', cmp a k t = .ok 0 t' → same a k = true) (rnd : Nat) (op : SMOp K V)
    (hop : ∀ k, op ≠ .remove k) (t : τ) :
    (∃ ob s L' m', SLM.exec cmp rnd op ⟨sl, t⟩ = .ok ob s ∧ Bag s.sl L' m' ∧ LooseStep same m op ob m') ∨
    (∃ s, SLM.exec cmp rnd op ⟨sl, t⟩ = .panic s ∧ Bag s.sl L m ∧ CmpPanics cmp op) ∨
    (SLM.exec cmp rnd op ⟨sl, t⟩ = .diverge ∧ CmpHangs cmp op) := by
  have fin : ∀ {key : K}, op.key? = some key →
      SafeC cmp key sl (fun s ob => ∃ L' m', Bag s L' m' ∧ LooseStep same m op ob m') (SLM.exec cmp rnd op ⟨sl, t⟩) →
      (∃ ob s L' m', SLM.exec cmp rnd op ⟨sl, t⟩ = .ok ob s ∧ Bag s.sl L' m' ∧ LooseStep same m op ob m') ∨
      (∃ s, SLM.exec cmp rnd op ⟨sl, t⟩ = .panic s ∧ Bag s.sl L m ∧ CmpPanics cmp op) ∨
      (SLM.exec cmp rnd op ⟨sl, t⟩ = .diverge ∧ CmpHangs cmp op) := by
    intro key hk hsafe
    cases e : SLM.exec cmp rnd op ⟨sl, t⟩ with
    | ok ob s =>
      rw [e] at hsafe
      obtain ⟨L', m', h1, h2⟩ := hsafe
      exact Or.inl ⟨ob, s, L', m', rfl, h1, h2⟩
    | panic s =>
      rw [e] at hsafe
      obtain ⟨hv, a, t, t', hp⟩ := hsafe
      exact Or.inr (.inl ⟨s, rfl, h.var hv, key, a, t, t', hk, hp⟩)
    | diverge =>
      rw [e] at hsafe
      obtain ⟨a, t, hp⟩ := hsafe
      exact Or.inr (.inr ⟨rfl, key, a, t, hk, hp⟩)
  cases op with
  | insert k v =>
    refine fin (key := k) rfl (SafeC.bind (h.insert hs rnd v t) ?_)
    rintro _ ⟨s, t⟩ ⟨L', m', hb, ho⟩
    exact SafeC.pure ⟨L', m', hb, rfl, ho⟩
  | remove k => exact absurd rfl (hop k)
  | clear => exact .inl ⟨.unit, ⟨sl.clear, t⟩, _, _, rfl, h.clear, rfl, rfl⟩
  | update k v =>
    refine fin (key := k) rfl (SafeC.bind (h.findNode hs t) ?_)
    rintro p ⟨s, t⟩ ⟨hsl, hp⟩
    obtain rfl : s = sl := hsl
    cases p with
    | none => exact SafeC.pure ⟨L, m, h, .inr ⟨rfl, rfl⟩⟩
    | some q =>
      obtain ⟨s', m', e, hb', ho⟩ := h.setValue (hp q rfl) v
      refine SafeC.writeLast (sl' := s') (a := .flag true) ?_ ⟨L, m', hb', .inl ⟨rfl, ho⟩⟩
      simp only [e, Outcome.ret_bind]; rfl
  | find k =>
    refine fin (key := k) rfl (SafeC.bind (h.findNode hs t) ?_)
    rintro p ⟨s, t⟩ ⟨hsl, hp⟩
    obtain rfl : s = sl := hsl
    cases p with
    | none => exact SafeC.pure ⟨L, m, h, rfl, .inl rfl⟩
    | some q =>
      obtain ⟨hq, e, he, hsame⟩ := hp q rfl
      obtain ⟨e', he', hkv⟩ := mem_kv h.kvs hq
      obtain rfl : e' = e := by rw [he] at hkv; injection hkv with hkv; exact hkv.symm
      obtain ⟨n, hn, _, hv⟩ := SL.kv_some he
      refine SafeC.readLast (a := .val (some e'.2)) ?_ ⟨L, m, h, rfl, .inr ⟨e', he', hsame, rfl⟩⟩
      simp [SL.readPtr, SL.deref, idx_of_get hn, hv]
  | has k =>
    refine fin (key := k) rfl (SafeC.bind (SafeC.bind (h.findNode hs t)
      (Q := fun s b => s = sl ∧ (b = true → ∃ e ∈ m, same e.1 k = true)) ?_) ?_)
    · rintro p s ⟨hsl, hp⟩
      refine SafeC.pure ⟨hsl, ?_⟩
      intro hb
      cases p with
      | none => simp at hb
      | some q =>
        obtain ⟨hq, e, he, hsame⟩ := hp q rfl
        obtain ⟨e', he', hkv⟩ := mem_kv h.kvs hq
        obtain rfl : e' = e := by rw [he] at hkv; injection hkv with hkv; exact hkv.symm
        exact ⟨e', he', hsame⟩
    · rintro b ⟨s, t⟩ ⟨hsl, hb⟩
      obtain rfl : s = sl := hsl
      refine SafeC.pure ⟨L, m, h, rfl, ?_⟩
      cases b with
      | false => exact .inl rfl
      | true => exact .inr ⟨rfl, hb rfl⟩
  | len =>
    exact .inl ⟨.num sl.len, ⟨sl, t⟩, L, m, rfl, h, rfl, by rw [h.len_eq]⟩
  | isEmpty =>
    refine .inl ⟨.flag sl.isEmpty, ⟨sl, t⟩, L, m, rfl, h, rfl, ?_⟩
    simp only [SL.isEmpty, h.len_eq]
    cases m <;> simp
    omega
  | iterate =>
    have e : SLM.exec cmp rnd .iterate ⟨sl, t⟩ = .ok (.entries m) ⟨sl, t⟩ := by
      simp only [SLM.exec]
      refine SLS.read_ok ?_
      simp only [h.iterate, Outcome.ret_bind, h.observe]; rfl
    exact .inl ⟨.entries m, ⟨sl, t⟩, L, m, e, h, rfl, rfl⟩
  | lowerBound k =>
    refine fin (key := k) rfl (SafeC.bind (SafeC.bind (h.lowerBound hs t)
      (Q := fun s it => s = sl ∧ ∃ A B, L 0 = A ++ B ∧ it = { node := B.head?, stop := none }) ?_) ?_)
    · rintro p s ⟨hsl, A, B, e, rfl⟩; exact SafeC.pure ⟨hsl, A, B, e, rfl⟩
    · rintro it ⟨s, t⟩ ⟨hsl, A, B, e, rfl⟩
      obtain rfl : s = sl := hsl
      obtain ⟨mA, mB, e1, e2, _⟩ := h.suffix e
      refine SafeC.readLast (a := .entries mB) ?_ ⟨L, m, h, rfl, mA, mB, e1, rfl⟩
      simp only [e2, Outcome.ret_bind]; rfl
  | upperBound k =>
    refine fin (key := k) rfl (SafeC.bind (SafeC.bind (h.upperBound hs t)
      (Q := fun s it => s = sl ∧ ∃ A B, L 0 = A ++ B ∧ it = { node := B.head?, stop := none }) ?_) ?_)
    · rintro p s ⟨hsl, A, B, e, rfl⟩; exact SafeC.pure ⟨hsl, A, B, e, rfl⟩
    · rintro it ⟨s, t⟩ ⟨hsl, A, B, e, rfl⟩
      obtain rfl : s = sl := hsl
      obtain ⟨mA, mB, e1, e2, _⟩ := h.suffix e
      refine SafeC.readLast (a := .entries mB) ?_ ⟨L, m, h, rfl, mA, mB, e1, rfl⟩
      simp only [e2, Outcome.ret_bind]; rfl

theorem Bag.run (hs : ∀ a k t t', cmp a k t = .ok 0 t' → same a k = true) (hist : List (Nat × SMOp K V)) :
    ∀ {sl : SL K V} {L : Nat → List Nat} {m : List (K × V)} (t : τ), Bag sl L m → (∀ o ∈ hist, ∀ k, o.2 ≠ .remove k) →
      ∃ L' m', FallibleRun (LooseStep same) (CmpPanics cmp) (CmpHangs cmp) m (opsOf hist) (SLM.run cmp ⟨sl, t⟩ hist).1 m' ∧
        Bag (SLM.run cmp ⟨sl, t⟩ hist).2.sl L' m' := by
  induction hist with
  | nil => intro sl L m t h _; exact ⟨L, m, .nil m, h⟩
  | cons o hist ih =>
    intro sl L m t h hop
    obtain ⟨rnd, op⟩ := o
    have hops : opsOf ((rnd, op) :: hist) = op :: opsOf hist := rfl
    have hrest : ∀ o ∈ hist, ∀ k, o.2 ≠ .remove k := fun o ho => hop o (by simp [ho])
    rw [hops]
    simp only [SLM.run]
    rcases h.exec hs rnd op (hop (rnd, op) (by simp)) t with ⟨ob, s, L1, m1, e, hb, hst⟩ | ⟨s, e, hb, hp⟩ | ⟨e, hh⟩
    · obtain ⟨L2, m2, h1, h2⟩ := ih (sl := s.sl) s.st hb hrest
      rw [e]; exact ⟨L2, m2, .done hst h1, h2⟩
    · obtain ⟨L2, m2, h1, h2⟩ := ih (sl := s.sl) s.st hb hrest
      rw [e]; exact ⟨L2, m2, .failed hp h1, h2⟩
    · rw [e]; exact ⟨L, m, .hung hh, h⟩

end Stl4go
