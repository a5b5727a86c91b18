import Verif.Model.SkipList
/-! # Skip list: the pointer structure, independent of keys -/
namespace Stl4go
variable {K V : Type}

/-- Number of levels of a node. -/
def SL.lvl (sl : SL K V) (p : Nat) : Nat :=
  match sl.nodes[p]? with
  | some n => n.next.length
  | none => 0

/-- Key and value of a node. -/
def SL.kv (sl : SL K V) (p : Nat) : Option (K × V) := sl.nodes[p]?.map (fun n => (n.key, n.value))

/-- `r.next[i]` as a partial function. -/
def SL.get (sl : SL K V) (r : Ref) (i : Nat) : Option (Option Nat) :=
  match r with
  | .head => sl.headNext[i]?
  | .node p => sl.nodes[p]?.bind (fun n => n.next[i]?)

/-- First node of a list that reaches level `i`. -/
def firstAt (lvl : Nat → Nat) (i : Nat) (B : List Nat) : Option Nat := B.find? (fun q => decide (i < lvl q))

/-- Last node of a list that reaches level `i`, the head if there is none. -/
def lastAt (lvl : Nat → Nat) (i : Nat) : List Nat → Ref
  | [] => .head
  | q :: B => if (firstAt lvl i B).isSome then lastAt lvl i B else if i < lvl q then .node q else .head

theorem firstAt_none {lvl : Nat → Nat} {i : Nat} {B : List Nat} :
    firstAt lvl i B = none ↔ ∀ q ∈ B, lvl q ≤ i := by
  simp [firstAt, List.find?_eq_none]

theorem firstAt_append {lvl : Nat → Nat} {i : Nat} {A B : List Nat} :
    firstAt lvl i (A ++ B) = (firstAt lvl i A).or (firstAt lvl i B) := by
  simp [firstAt, List.find?_append]

theorem firstAt_cons_pos {lvl : Nat → Nat} {i q : Nat} {B : List Nat} (h : i < lvl q) :
    firstAt lvl i (q :: B) = some q := by simp [firstAt, h]

theorem firstAt_cons_neg {lvl : Nat → Nat} {i q : Nat} {B : List Nat} (h : ¬ i < lvl q) :
    firstAt lvl i (q :: B) = firstAt lvl i B := by simp [firstAt, h]

theorem firstAt_congr {lvl lvl' : Nat → Nat} {i : Nat} {B : List Nat} (h : ∀ q ∈ B, lvl' q = lvl q) :
    firstAt lvl' i B = firstAt lvl i B := by
  induction B with
  | nil => rfl
  | cons q B ih =>
    have hq := h q (by simp)
    have := ih (fun x hx => h x (by simp [hx]))
    by_cases hi : i < lvl q
    · rw [firstAt_cons_pos hi, firstAt_cons_pos (by omega)]
    · rw [firstAt_cons_neg hi, firstAt_cons_neg (by omega), this]

theorem firstAt_some {lvl : Nat → Nat} {i c : Nat} {B : List Nat} (h : firstAt lvl i B = some c) :
    ∃ P Q, B = P ++ c :: Q ∧ i < lvl c ∧ ∀ q ∈ P, lvl q ≤ i := by
  induction B with
  | nil => simp [firstAt] at h
  | cons q B ih =>
    by_cases hi : i < lvl q
    · rw [firstAt_cons_pos hi] at h
      injection h with h; subst h
      exact ⟨[], B, rfl, hi, by simp⟩
    · rw [firstAt_cons_neg hi] at h
      obtain ⟨P, Q, rfl, hc, hP⟩ := ih h
      refine ⟨q :: P, Q, rfl, hc, ?_⟩
      intro x hx
      rcases List.mem_cons.1 hx with rfl | hx
      · omega
      · exact hP x hx

/-- Either no node reaches the level, or the last one splits the list. -/
theorem lastAt_cases (lvl : Nat → Nat) (i : Nat) (G : List Nat) :
    (lastAt lvl i G = .head ∧ ∀ q ∈ G, lvl q ≤ i) ∨
    ∃ A p B, G = A ++ p :: B ∧ lastAt lvl i G = .node p ∧ i < lvl p ∧ ∀ q ∈ B, lvl q ≤ i := by
  induction G with
  | nil => exact .inl ⟨rfl, by simp⟩
  | cons q G ih =>
    cases hf : firstAt lvl i G with
    | some c =>
      have e : lastAt lvl i (q :: G) = lastAt lvl i G := by simp [lastAt, hf]
      rcases ih with ⟨_, h2⟩ | ⟨A, p, B, h1, h2, h3, h4⟩
      · rw [← firstAt_none, hf] at h2; exact absurd h2 (by simp)
      · exact .inr ⟨q :: A, p, B, by simp [h1], by rw [e, h2], h3, h4⟩
    | none =>
      have hn := firstAt_none.1 hf
      by_cases hi : i < lvl q
      · exact .inr ⟨[], q, G, rfl, by simp [lastAt, hf, hi], hi, hn⟩
      · refine .inl ⟨by simp [lastAt, hf, hi], ?_⟩
        intro x hx
        rcases List.mem_cons.1 hx with rfl | hx
        · omega
        · exact hn x hx

theorem lastAt_snoc {lvl : Nat → Nat} {i p : Nat} {A B : List Nat} (hp : i < lvl p) (hB : ∀ q ∈ B, lvl q ≤ i) :
    lastAt lvl i (A ++ p :: B) = .node p := by
  induction A with
  | nil => simp [lastAt, firstAt_none.2 hB, hp]
  | cons a A ih =>
    have : (firstAt lvl i (A ++ p :: B)).isSome = true := by
      rw [firstAt_append, firstAt_cons_pos hp]; cases firstAt lvl i A <;> rfl
    rw [List.cons_append, lastAt, if_pos this, ih]

theorem lastAt_head {lvl : Nat → Nat} {i : Nat} {G : List Nat} (h : ∀ q ∈ G, lvl q ≤ i) : lastAt lvl i G = .head := by
  rcases lastAt_cases lvl i G with ⟨h1, _⟩ | ⟨A, p, B, rfl, _, h3, _⟩
  · exact h1
  · have := h p (by simp); omega

theorem lastAt_append_low {lvl : Nat → Nat} {i : Nat} {G P : List Nat} (h : ∀ q ∈ P, lvl q ≤ i) :
    lastAt lvl i (G ++ P) = lastAt lvl i G := by
  rcases lastAt_cases lvl i G with ⟨h1, h2⟩ | ⟨A, p, B, rfl, h2, h3, h4⟩
  · rw [h1]; apply lastAt_head
    intro q hq; rcases List.mem_append.1 hq with hq | hq
    · exact h2 q hq
    · exact h q hq
  · rw [h2, List.append_assoc, List.cons_append]
    apply lastAt_snoc h3
    intro q hq; rcases List.mem_append.1 hq with hq | hq
    · exact h4 q hq
    · exact h q hq

theorem lastAt_node_mem {lvl : Nat → Nat} {i p : Nat} {G : List Nat} (h : lastAt lvl i G = .node p) :
    p ∈ G ∧ i < lvl p := by
  rcases lastAt_cases lvl i G with ⟨h1, _⟩ | ⟨A, q, B, rfl, h2, h3, _⟩
  · rw [h1] at h; exact absurd h (by simp)
  · rw [h2] at h; injection h with h; subst h; exact ⟨by simp, h3⟩

theorem lastAt_congr {lvl lvl' : Nat → Nat} {i : Nat} {G : List Nat} (h : ∀ q ∈ G, lvl' q = lvl q) :
    lastAt lvl' i G = lastAt lvl i G := by
  induction G with
  | nil => rfl
  | cons q G ih =>
    have h' : ∀ x ∈ G, lvl' x = lvl x := fun x hx => h x (by simp [hx])
    simp only [lastAt, firstAt_congr h', ih h', h q (by simp)]

/-- A node found at a level is also usable at any lower level. -/
theorem lastAt_lower {lvl : Nat → Nat} {i j : Nat} (hij : i ≤ j) (G : List Nat) :
    ∃ pre post, G = pre ++ post ∧ lastAt lvl j G = lastAt lvl i pre := by
  rcases lastAt_cases lvl j G with ⟨h1, _⟩ | ⟨A, p, B, rfl, h2, h3, _⟩
  · exact ⟨[], G, rfl, by rw [h1]; rfl⟩
  · refine ⟨A ++ [p], B, by simp, ?_⟩
    rw [h2, lastAt_snoc (by omega) (by simp)]

/-- `ids` are the nodes in order; every level links exactly the nodes that reach it. -/
structure Linked (get : Ref → Nat → Option (Option Nat)) (lvl : Nat → Nat) (ids : List Nat) : Prop where
  nodup : ids.Nodup
  head_get : ∀ i, i < 40 → get .head i = some (firstAt lvl i ids)
  node_get : ∀ A p B, ids = A ++ p :: B → ∀ i, i < lvl p → get (.node p) i = some (firstAt lvl i B)

variable {get get' : Ref → Nat → Option (Option Nat)} {lvl lvl' : Nat → Nat}

theorem Linked.get_lastAt {G R : List Nat} (h : Linked get lvl (G ++ R)) {i : Nat} (hi : i < 40) :
    get (lastAt lvl i G) i = some (firstAt lvl i R) := by
  rcases lastAt_cases lvl i G with ⟨h1, h2⟩ | ⟨A, p, B, rfl, h2, h3, h4⟩
  · rw [h1, h.head_get i hi, firstAt_append, firstAt_none.2 h2]; rfl
  · rw [h2, h.node_get A p (B ++ R) (by simp) i h3, firstAt_append, firstAt_none.2 h4]; rfl

/-- In a duplicate-free list a node has one position. -/
theorem split_unique {A B A' B' : List Nat} {p : Nat} (hn : (A ++ p :: B).Nodup) (h : A ++ p :: B = A' ++ p :: B') :
    A = A' ∧ B = B' := by
  induction A generalizing A' with
  | nil =>
    cases A' with
    | nil => simp at h; exact ⟨rfl, h⟩
    | cons a A' =>
      simp only [List.nil_append, List.cons_append, List.cons.injEq] at h
      obtain ⟨rfl, rfl⟩ := h
      simp at hn
  | cons a A ih =>
    cases A' with
    | nil =>
      simp only [List.nil_append, List.cons_append, List.cons.injEq] at h
      obtain ⟨rfl, rfl⟩ := h
      simp at hn
    | cons a' A' =>
      simp only [List.cons_append, List.cons.injEq] at h
      obtain ⟨rfl, h⟩ := h
      have := ih (List.nodup_cons.1 (by simpa using hn)).2 h
      exact ⟨by rw [this.1], this.2⟩

/-- Splicing a node in after `G`. -/
theorem Linked.insert {G S : List Nat} {p l : Nat} (h : Linked get lvl (G ++ S)) (hp : p ∉ G ++ S)
    (hlvl : ∀ q ∈ G ++ S, lvl' q = lvl q) (hl : lvl' p = l)
    (h1 : ∀ i, i < l → get' (lastAt lvl i G) i = some (some p))
    (h2 : ∀ i, i < l → get' (.node p) i = some (firstAt lvl i S))
    (h3 : ∀ r i, r ≠ .node p → ¬ (i < l ∧ r = lastAt lvl i G) → get' r i = get r i) :
    Linked get' lvl' (G ++ p :: S) := by
  have hG : ∀ q ∈ G, lvl' q = lvl q := fun q hq => hlvl q (by simp [hq])
  have hS : ∀ q ∈ S, lvl' q = lvl q := fun q hq => hlvl q (by simp [hq])
  refine ⟨?_, ?_, ?_⟩
  · have := h.nodup
    rw [List.nodup_append] at this ⊢
    simp only [List.mem_append, not_or] at hp
    refine ⟨this.1, List.nodup_cons.2 ⟨hp.2, this.2.1⟩, ?_⟩
    intro a ha b hb
    rcases List.mem_cons.1 hb with rfl | hb
    · rintro rfl; exact hp.1 ha
    · exact this.2.2 a ha b hb
  · intro i hi
    rw [firstAt_append, firstAt_congr hG]
    rcases lastAt_cases lvl i G with ⟨e, hlow⟩ | ⟨A, q, B, rfl, e, hq, hB⟩
    · rw [firstAt_none.2 hlow, Option.none_or]
      by_cases hil : i < l
      · rw [firstAt_cons_pos (by omega), ← e, h1 i hil]
      · rw [firstAt_cons_neg (by omega), firstAt_congr hS, h3 _ _ (by simp) (by simp [hil]), h.head_get i hi,
          firstAt_append, firstAt_none.2 hlow, Option.none_or]
    · rw [h3 _ _ (by simp) (by rw [e]; simp), h.head_get i hi, firstAt_append]
      have : ∃ c, firstAt lvl i (A ++ q :: B) = some c := by
        rw [firstAt_append, firstAt_cons_pos hq]; cases firstAt lvl i A <;> simp
      obtain ⟨c, hc⟩ := this
      rw [hc]; rfl
  · intro A q B hsplit i hi
    by_cases hqp : q = p
    · subst hqp
      have hn : (G ++ q :: S).Nodup := by
        have := h.nodup
        rw [List.nodup_append] at this ⊢
        simp only [List.mem_append, not_or] at hp
        refine ⟨this.1, List.nodup_cons.2 ⟨hp.2, this.2.1⟩, ?_⟩
        intro a ha b hb
        rcases List.mem_cons.1 hb with rfl | hb
        · rintro rfl; exact hp.1 ha
        · exact this.2.2 a ha b hb
      obtain ⟨rfl, rfl⟩ := split_unique hn hsplit
      rw [h2 i (by omega), firstAt_congr hS]
    · have hqm : q ∈ G ++ S := by
        have : q ∈ G ++ p :: S := by rw [hsplit]; simp
        simp only [List.mem_append, List.mem_cons] at this ⊢
        rcases this with h | h | h
        · exact .inl h
        · exact absurd h hqp
        · exact .inr h
      have hqne : Ref.node q ≠ Ref.node p := by simpa using hqp
      have hiq : i < lvl q := by rw [← hlvl q hqm]; exact hi
      -- is q in G or in S?
      rcases List.append_eq_append_iff.1 hsplit with ⟨D, hA, hD⟩ | ⟨D, hG', hD⟩
      · -- A = G ++ D, p :: S = D ++ q :: B
        cases D with
        | nil => simp at hD; exact absurd hD.1.symm hqp
        | cons d D =>
          simp only [List.cons_append, List.cons.injEq] at hD
          obtain ⟨rfl, hS'⟩ := hD
          rw [h3 _ _ hqne, h.node_get (G ++ D) q B (by rw [hS']; simp) i hiq, firstAt_congr]
          · intro x hx; exact (hS x (by rw [hS']; simp [hx])).symm
          · rintro ⟨_, e⟩
            have := (lastAt_node_mem e.symm).1
            have hn := h.nodup
            rw [List.nodup_append] at hn
            exact hn.2.2 q this q (by rw [hS']; simp) rfl
      · -- G = A ++ D, q :: B = D ++ p :: S
        cases D with
        | nil => simp at hD; exact absurd hD.1 hqp
        | cons d D =>
          simp only [List.cons_append, List.cons.injEq] at hD
          obtain ⟨rfl, hB'⟩ := hD
          subst hB' hG'
          have hDl : ∀ x ∈ D, lvl' x = lvl x := fun x hx => hG x (by simp [hx])
          rw [firstAt_append, firstAt_congr hDl]
          cases hf : firstAt lvl i D with
          | none =>
            have e : lastAt lvl i (A ++ q :: D) = .node q := lastAt_snoc hiq (firstAt_none.1 hf)
            rw [Option.none_or]
            by_cases hil : i < l
            · rw [firstAt_cons_pos (by omega), ← e, h1 i hil]
            · rw [firstAt_cons_neg (by omega), firstAt_congr hS, h3 _ _ hqne (by simp [hil]),
                h.node_get A q (D ++ S) (by simp) i hiq, firstAt_append, hf, Option.none_or]
          | some c =>
            rw [h3 _ _ hqne, h.node_get A q (D ++ S) (by simp) i hiq, firstAt_append, hf]
            · rfl
            · rintro ⟨_, e⟩
              obtain ⟨P, Q, rfl, hc, _⟩ := firstAt_some hf
              rcases lastAt_cases lvl i (A ++ q :: (P ++ c :: Q)) with ⟨e', _⟩ | ⟨A', p', B', e1, e2, e3, e4⟩
              · rw [e'] at e; exact absurd e (by simp)
              · rw [e2] at e; injection e with e; subst e
                have hn : (A ++ q :: (P ++ c :: Q)).Nodup := (List.nodup_append.1 h.nodup).1
                obtain ⟨rfl, rfl⟩ := split_unique hn e1
                have := e4 c (by simp); omega

/-- Unlinking the node after `G`. -/
theorem Linked.remove {G S : List Nat} {p : Nat} (h : Linked get lvl (G ++ p :: S))
    (h1 : ∀ i, i < lvl p → get' (lastAt lvl i G) i = some (firstAt lvl i S))
    (h3 : ∀ r i, ¬ (i < lvl p ∧ r = lastAt lvl i G) → get' r i = get r i) :
    Linked get' lvl (G ++ S) := by
  have hn := h.nodup
  have hn' : (G ++ S).Nodup := by
    rw [List.nodup_append] at hn ⊢
    exact ⟨hn.1, (List.nodup_cons.1 hn.2.1).2, fun a ha b hb => hn.2.2 a ha b (by simp [hb])⟩
  have hdrop : ∀ i, ¬ i < lvl p → firstAt lvl i (p :: S) = firstAt lvl i S := fun i hi => firstAt_cons_neg hi
  refine ⟨hn', ?_, ?_⟩
  · intro i hi
    rw [firstAt_append]
    rcases lastAt_cases lvl i G with ⟨e, hlow⟩ | ⟨A, q, B, rfl, e, hq, hB⟩
    · rw [firstAt_none.2 hlow, Option.none_or]
      by_cases hil : i < lvl p
      · rw [← e, h1 i hil]
      · rw [h3 _ _ (by simp [hil]), h.head_get i hi, firstAt_append, firstAt_none.2 hlow, Option.none_or, hdrop i hil]
    · rw [h3 _ _ (by rw [e]; simp), h.head_get i hi, firstAt_append]
      have : ∃ c, firstAt lvl i (A ++ q :: B) = some c := by
        rw [firstAt_append, firstAt_cons_pos hq]; cases firstAt lvl i A <;> simp
      obtain ⟨c, hc⟩ := this
      rw [hc]; rfl
  · intro A q B hsplit i hiq
    rcases List.append_eq_append_iff.1 hsplit with ⟨D, hA, hD⟩ | ⟨D, hG', hD⟩
    · -- S = D ++ q :: B
      rw [h3, h.node_get (G ++ p :: D) q B (by rw [hD]; simp) i hiq]
      rintro ⟨_, e⟩
      have := (lastAt_node_mem e.symm).1
      exact (List.nodup_append.1 hn').2.2 q this q (by rw [hD]; simp) rfl
    · cases D with
      | nil =>
        simp only [List.nil_append] at hD
        simp only [List.append_nil] at hG'
        subst hG'
        rw [h3, h.node_get (G ++ [p]) q B (by rw [← hD]; simp) i hiq]
        rintro ⟨_, e⟩
        have := (lastAt_node_mem e.symm).1
        exact (List.nodup_append.1 hn').2.2 q this q (by rw [← hD]; simp) rfl
      | cons d D =>
        simp only [List.cons_append, List.cons.injEq] at hD
        obtain ⟨rfl, hB'⟩ := hD
        subst hB' hG'
        rw [firstAt_append]
        cases hf : firstAt lvl i D with
        | none =>
          have e : lastAt lvl i (A ++ q :: D) = .node q := lastAt_snoc hiq (firstAt_none.1 hf)
          rw [Option.none_or]
          by_cases hil : i < lvl p
          · rw [← e, h1 i hil]
          · rw [h3 _ _ (by simp [hil]), h.node_get A q (D ++ p :: S) (by simp) i hiq, firstAt_append, hf,
              Option.none_or, hdrop i hil]
        | some c =>
          rw [h3, h.node_get A q (D ++ p :: S) (by simp) i hiq, firstAt_append, hf]
          · rfl
          · rintro ⟨_, e⟩
            obtain ⟨P, Q, rfl, hc, _⟩ := firstAt_some hf
            rcases lastAt_cases lvl i (A ++ q :: (P ++ c :: Q)) with ⟨e', _⟩ | ⟨A', p', B', e1, e2, e3, e4⟩
            · rw [e'] at e; exact absurd e (by simp)
            · rw [e2] at e; injection e with e; subst e
              have hn2 : (A ++ q :: (P ++ c :: Q)).Nodup := (List.nodup_append.1 hn').1
              obtain ⟨rfl, rfl⟩ := split_unique hn2 e1
              have := e4 c (by simp); omega

end Stl4go
