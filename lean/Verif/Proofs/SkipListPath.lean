import Verif.Proofs.SkipListRun
/-! # Skip list: where a search ends when nothing is known about the comparison -/
namespace Stl4go
variable {K V : Type}

/-! ## Paths, on lists of node ids -/

/-- A search that passes `G` and stops before `R`: the nodes it looks at are the ones not hidden by a higher node closer to the
position. -/
structure MissPath (lvl : Nat → Nat) (D : Nat → Dec) (G R : List Nat) : Prop where
  go : ∀ A q B, G = A ++ q :: B → (∀ b ∈ B, lvl b ≤ lvl q) → D q = .go
  stop : ∀ x c, firstAt lvl x R = some c → D c = .stop

/-- A search that passes `G` and hits `h`. -/
structure HitPath (lvl : Nat → Nat) (D : Nat → Dec) (G : List Nat) (h : Nat) (S : List Nat) : Prop where
  go : ∀ A q B, G = A ++ q :: B → (∀ b ∈ B, lvl b ≤ lvl q) → lvl h ≤ lvl q → D q = .go
  hit : D h = .hit
  stop : ∀ x c, lvl h ≤ x → firstAt lvl x S = some c → D c = .stop

variable {lvl : Nat → Nat} {D : Nat → Dec}

/-- One level of a search. -/
theorem walk_split (lvl : Nat → Nat) (D : Nat → Dec) (i : Nat) (R : List Nat) :
    ∃ P Q, R = P ++ Q ∧ (∀ A q, P = A ++ [q] → i < lvl q) ∧ (∀ q ∈ P, i < lvl q → D q = .go) ∧
      ∀ c, firstAt lvl i Q = some c → D c ≠ .go := by
  induction R with
  | nil => exact ⟨[], [], rfl, by simp, by simp, by simp [firstAt]⟩
  | cons a R ih =>
    obtain ⟨P, Q, rfl, h1, h2, h3⟩ := ih
    by_cases ha : i < lvl a
    · by_cases hd : D a = .go
      · refine ⟨a :: P, Q, rfl, ?_, ?_, h3⟩
        · intro A q e
          cases A with
          | nil => simp at e; rw [← e.1]; exact ha
          | cons b A => simp at e; exact h1 A q e.2
        · intro q hq hi
          rcases List.mem_cons.1 hq with rfl | hq
          · exact hd
          · exact h2 q hq hi
      · refine ⟨[], a :: (P ++ Q), rfl, by simp, by simp, ?_⟩
        intro c hc
        rw [firstAt_cons_pos ha] at hc
        injection hc with hc; subst hc; exact hd
    · cases P with
      | nil => exact ⟨[], a :: Q, rfl, by simp, by simp, fun c hc => h3 c (by rw [firstAt_cons_neg ha] at hc; exact hc)⟩
      | cons b P =>
        refine ⟨a :: b :: P, Q, rfl, ?_, ?_, h3⟩
        · intro A q e
          cases A with
          | nil => simp at e
          | cons c A => simp at e; exact h1 A q (by simp [e.2])
        · intro q hq hi
          rcases List.mem_cons.1 hq with rfl | hq
          · exact absurd hi ha
          · exact h2 q hq hi

theorem split_append {A B G P : List Nat} {q : Nat} (h : G ++ P = A ++ q :: B) :
    (∃ B1, G = A ++ q :: B1 ∧ B = B1 ++ P) ∨ ∃ A2, A = G ++ A2 ∧ P = A2 ++ q :: B := by
  rcases List.append_eq_append_iff.1 h with ⟨E, e1, e2⟩ | ⟨E, e1, e2⟩
  · exact .inr ⟨E, e1, e2⟩
  · cases E with
    | nil => simp at e1 e2; exact .inr ⟨[], by simp [e1], e2.symm⟩
    | cons d E =>
      simp only [List.cons_append, List.cons.injEq] at e2
      obtain ⟨rfl, e2⟩ := e2
      exact .inl ⟨E, e1, e2⟩

/-- The state of a search that has finished the levels from `m` on. -/
structure PathInv (lvl : Nat → Nat) (D : Nat → Dec) (m : Nat) (G R : List Nat) : Prop where
  tip : ∀ A q, G = A ++ [q] → m < lvl q
  go : ∀ A q B, G = A ++ q :: B → (∀ b ∈ B, lvl b ≤ lvl q) → D q = .go
  stop : ∀ x c, m ≤ x → firstAt lvl x R = some c → D c = .stop

theorem PathInv.step {m : Nat} {G R ids : List Nat} (hids : ids = G ++ R) (h : PathInv lvl D (m + 1) G R) :
    (∃ G' R', ids = G' ++ R' ∧ PathInv lvl D m G' R') ∨ ∃ G' q S, ids = G' ++ q :: S ∧ HitPath lvl D G' q S := by
  obtain ⟨P, Q, rfl, h1, h2, h3⟩ := walk_split lvl D m R
  have hP : ∀ q ∈ P, lvl q ≤ m + 1 := by
    apply firstAt_none.1
    cases hc : firstAt lvl (m + 1) P with
    | none => rfl
    | some c =>
      exfalso
      have hs := h.stop (m + 1) c (Nat.le_refl _) (by rw [firstAt_append, hc]; rfl)
      obtain ⟨P1, P2, rfl, hlc, _⟩ := firstAt_some hc
      have := h2 c (by simp) (by omega)
      rw [hs] at this; exact absurd this (by simp)
  have hQ : ∀ x c, m + 1 ≤ x → firstAt lvl x Q = some c → D c = .stop := by
    intro x c hx hc
    refine h.stop x c hx ?_
    rw [firstAt_append, firstAt_none.2 (fun q hq => Nat.le_trans (hP q hq) hx)]
    exact hc
  have hgo : ∀ A q B, G ++ P = A ++ q :: B → (∀ b ∈ B, lvl b ≤ lvl q) → D q = .go := by
    intro A q B e hB
    rcases split_append e with ⟨B1, e1, rfl⟩ | ⟨A2, rfl, rfl⟩
    · exact h.go A q B1 e1 (fun b hb => hB b (by simp [hb]))
    · refine h2 q (by simp) ?_
      rcases List.eq_nil_or_concat B with rfl | ⟨B', z, rfl⟩
      · exact h1 A2 q rfl
      · have := h1 (A2 ++ q :: B') z (by simp)
        have := hB z (by simp)
        omega
  cases hc : firstAt lvl m Q with
  | none =>
    refine .inl ⟨G ++ P, Q, by simp [hids], ⟨?_, hgo, ?_⟩⟩
    · intro A q e
      rcases List.eq_nil_or_concat P with rfl | ⟨P', z, rfl⟩
      · have := h.tip A q (by simpa using e); omega
      · rw [List.concat_eq_append, ← List.append_assoc] at e
        obtain ⟨_, e⟩ := List.append_inj' e rfl
        simp at e; subst e
        exact h1 P' z (by simp)
    · intro x c hx hcx
      by_cases he : x = m
      · subst he; rw [hc] at hcx; exact absurd hcx (by simp)
      · exact hQ x c (by omega) hcx
  | some c =>
    cases hd : D c with
    | go => exact absurd hd (h3 c hc)
    | stop =>
      refine .inl ⟨G ++ P, Q, by simp [hids], ⟨?_, hgo, ?_⟩⟩
      · intro A q e
        rcases List.eq_nil_or_concat P with rfl | ⟨P', z, rfl⟩
        · have := h.tip A q (by simpa using e); omega
        · rw [List.concat_eq_append, ← List.append_assoc] at e
          obtain ⟨_, e⟩ := List.append_inj' e rfl
          simp at e; subst e
          exact h1 P' z (by simp)
      · intro x c' hx hcx
        by_cases he : x = m
        · subst he; rw [hc] at hcx; injection hcx with hcx; subst hcx; exact hd
        · exact hQ x c' (by omega) hcx
    | hit =>
      obtain ⟨Q1, Q2, rfl, hlc, hQ1⟩ := firstAt_some hc
      have hle : lvl c ≤ m + 1 := by
        rcases Nat.lt_or_ge (m + 1) (lvl c) with hlt | hge
        · have := hQ (m + 1) c (Nat.le_refl _) (by
            rw [firstAt_append, firstAt_none.2 (fun q hq => Nat.le_trans (hQ1 q hq) (by omega)), firstAt_cons_pos hlt]; rfl)
          rw [hd] at this; exact absurd this (by simp)
        · exact hge
      refine .inr ⟨G ++ P ++ Q1, c, Q2, by simp [hids], ⟨?_, hd, ?_⟩⟩
      · intro A q B e hB hq
        rcases split_append e with ⟨B1, e1, rfl⟩ | ⟨A2, rfl, rfl⟩
        · exact hgo A q B1 e1 (fun b hb => hB b (by simp [hb]))
        · have := hQ1 q (by simp); omega
      · intro x c' hx hcx
        refine hQ x c' (by omega) ?_
        rw [firstAt_append, firstAt_none.2 (fun q hq => Nat.le_trans (hQ1 q hq) (by omega)), firstAt_cons_neg (by omega)]
        exact hcx

/-- Every search has a path. -/
theorem exists_path (lvl : Nat → Nat) (D : Nat → Dec) (n : Nat) (ids : List Nat) (hn : ∀ p ∈ ids, lvl p ≤ n) :
    (∃ G R, ids = G ++ R ∧ MissPath lvl D G R) ∨ ∃ G q S, ids = G ++ q :: S ∧ HitPath lvl D G q S := by
  have main : ∀ k m, m + k = n → (∃ G R, ids = G ++ R ∧ PathInv lvl D m G R) ∨ ∃ G q S, ids = G ++ q :: S ∧ HitPath lvl D G q S := by
    intro k
    induction k with
    | zero =>
      intro m hm
      refine .inl ⟨[], ids, rfl, ⟨by simp, by simp, ?_⟩⟩
      intro x c hx hc
      rw [firstAt_none.2 (fun p hp => Nat.le_trans (hn p hp) (by omega))] at hc
      exact absurd hc (by simp)
    | succ k ih =>
      intro m hm
      rcases ih (m + 1) (by omega) with ⟨G, R, e, h⟩ | h
      · exact h.step e
      · exact .inr h
  rcases main n 0 (by omega) with ⟨G, R, e, h⟩ | h
  · exact .inl ⟨G, R, e, h.go, fun x c hc => h.stop x c (by omega) hc⟩
  · exact .inr h

/-- A node that is hit can be put where a search ended. -/
theorem MissPath.add {lvl' : Nat → Nat} {D' : Nat → Dec} {G R : List Nat} {N : Nat} (h : MissPath lvl D G R)
    (hl : ∀ q ∈ G ++ R, lvl' q = lvl q) (hD : ∀ q ∈ G ++ R, D' q = D q) (hN : D' N = .hit) : HitPath lvl' D' G N R := by
  refine ⟨?_, hN, ?_⟩
  · intro A q B e hB _
    rw [hD q (by rw [e]; simp)]
    refine h.go A q B e (fun b hb => ?_)
    have := hB b hb
    rwa [hl b (by rw [e]; simp [hb]), hl q (by rw [e]; simp)] at this
  · intro x c _ hc
    rw [firstAt_congr (fun q hq => hl q (by simp [hq]))] at hc
    obtain ⟨P, Q, hR, _⟩ := firstAt_some hc
    rw [hD c (by rw [hR]; simp)]
    exact h.stop x c hc

/-! ## The loops follow the path -/

/-- What a search decides at a node. -/
def SL.decAt (sl : SL K V) (dec : K → Dec) (p : Nat) : Dec :=
  match sl.kv p with
  | some e => dec e.1
  | none => .stop

variable {dec : K → Dec} {sl : SL K V} {ids : List Nat}

theorem SL.decAt_eq {p : Nat} {n : SLNode K V} (h : sl.nodes[p]? = some n) : sl.decAt dec p = dec n.key := by
  simp [SL.decAt, SL.kv, h]

theorem walk_path {pre G2 T : List Nat} {i fuel : Nat}
    (L : Linked sl.get sl.lvl ids) (hids : ids = pre ++ (G2 ++ T)) (hf : G2.length < fuel)
    (hgo : ∀ q ∈ G2, i < sl.lvl q → sl.decAt dec q = .go)
    (hT : ∀ c, firstAt sl.lvl i T = some c → sl.decAt dec c ≠ .go) :
    walk dec sl i fuel (lastAt sl.lvl i pre) (firstAt sl.lvl i (G2 ++ T)) =
      match firstAt sl.lvl i T with
      | some c => if sl.decAt dec c = .hit then .ret (.inl c) else .ret (.inr (lastAt sl.lvl i (pre ++ G2)))
      | none => .ret (.inr (lastAt sl.lvl i (pre ++ G2))) := by
  induction fuel generalizing pre G2 with
  | zero => omega
  | succ fuel ih =>
    rw [firstAt_append]
    cases hc : firstAt sl.lvl i G2 with
    | some c =>
      obtain ⟨P, Q, rfl, hic, hP⟩ := firstAt_some hc
      obtain ⟨e, hkv⟩ := SL.kv_of_lvl (sl := sl) (p := c) (by omega)
      obtain ⟨n, hn, hk, _⟩ := SL.kv_some hkv
      have hdec : dec n.key = .go := (SL.decAt_eq hn).symm.trans (hgo c (by simp) hic)
      have hget := L.node_get (pre ++ P) c (Q ++ T) (by rw [hids]; simp) i hic
      rw [SL.get_node hn] at hget
      simp only [Option.some_or, walk, SL.deref, idx_of_get hn, Outcome.ret_bind, hdec, idx_of_get hget]
      have hl : (Ref.node c) = lastAt sl.lvl i (pre ++ P ++ [c]) := (lastAt_snoc hic (by simp)).symm
      have hids' : pre ++ (P ++ c :: Q) = (pre ++ P ++ [c]) ++ Q := by simp
      rw [hl, hids']
      refine ih (by rw [hids]; simp) ?_ (fun q hq => hgo q (by simp [hq]))
      simp at hf; omega
    | none =>
      have hlow := firstAt_none.1 hc
      rw [Option.none_or, lastAt_append_low hlow]
      cases hs : firstAt sl.lvl i T with
      | none => rfl
      | some c =>
        obtain ⟨P, Q, rfl, hic, _⟩ := firstAt_some hs
        obtain ⟨e, hkv⟩ := SL.kv_of_lvl (sl := sl) (p := c) (by omega)
        obtain ⟨n, hn, hk, _⟩ := SL.kv_some hkv
        have hd := hT c hs
        rw [SL.decAt_eq hn] at hd
        simp only [walk, SL.deref, idx_of_get hn, Outcome.ret_bind, SL.decAt_eq hn]
        cases hx : dec n.key with
        | go => exact absurd hx hd
        | stop => simp
        | hit => simp

theorem lastAt_lower_succ {lvl : Nat → Nat} {i : Nat} (G : List Nat) :
    ∃ pre post, G = pre ++ post ∧ lastAt lvl (i + 1) G = lastAt lvl i pre ∧ ∀ q ∈ post, lvl q ≤ i + 1 := by
  rcases lastAt_cases lvl (i + 1) G with ⟨h1, h2⟩ | ⟨A, p, B, rfl, h2, h3, h4⟩
  · exact ⟨[], G, rfl, by rw [h1]; rfl, h2⟩
  · refine ⟨A ++ [p], B, by simp, ?_, h4⟩
    rw [h2, lastAt_snoc (by omega) (by simp)]

/-- One level of the search. -/
theorem level_path {G T : List Nat} {i : Nat}
    (L : Linked sl.get sl.lvl ids) (hids : ids = G ++ T) (hi : i < 40) (hlen : ids.length ≤ sl.nodes.length)
    (hgo : ∀ A q B, G = A ++ q :: B → (∀ b ∈ B, sl.lvl b ≤ sl.lvl q) → i < sl.lvl q → sl.decAt dec q = .go)
    (hT : ∀ c, firstAt sl.lvl i T = some c → sl.decAt dec c ≠ .go) :
    ∃ cur, sl.nextAt (lastAt sl.lvl (i + 1) G) i = .ret cur ∧
      walk dec sl i (sl.nodes.length + 1) (lastAt sl.lvl (i + 1) G) cur =
        match firstAt sl.lvl i T with
        | some c => if sl.decAt dec c = .hit then .ret (.inl c) else .ret (.inr (lastAt sl.lvl i G))
        | none => .ret (.inr (lastAt sl.lvl i G)) := by
  obtain ⟨pre, post, rfl, e, hpost⟩ := lastAt_lower_succ (lvl := sl.lvl) (i := i) G
  refine ⟨firstAt sl.lvl i (post ++ T), ?_, ?_⟩
  · rw [e]
    apply SL.nextAt_of_get
    subst hids
    rw [List.append_assoc] at L
    exact L.get_lastAt hi
  · rw [e]
    refine walk_path L (by rw [hids]; simp) ?_ ?_ hT
    · subst hids; simp at hlen; omega
    · intro q hq hiq
      obtain ⟨A, B, rfl⟩ := List.append_of_mem hq
      refine hgo (pre ++ A) q B (by simp) (fun b hb => ?_) hiq
      have := hpost b (by simp [hb]); omega

section
variable {G R S : List Nat} {h : Nat}

theorem MissPath.level (mp : MissPath sl.lvl (sl.decAt dec) G R) {i : Nat}
    (L : Linked sl.get sl.lvl ids) (hids : ids = G ++ R) (hi : i < 40) (hlen : ids.length ≤ sl.nodes.length) :
    ∃ cur, sl.nextAt (lastAt sl.lvl (i + 1) G) i = .ret cur ∧
      walk dec sl i (sl.nodes.length + 1) (lastAt sl.lvl (i + 1) G) cur = .ret (.inr (lastAt sl.lvl i G)) := by
  obtain ⟨cur, h1, h2⟩ := level_path (dec := dec) (i := i) L hids hi hlen (fun A q B e hB _ => mp.go A q B e hB)
    (fun c hc => by rw [mp.stop i c hc]; simp)
  refine ⟨cur, h1, ?_⟩
  rw [h2]
  cases hc : firstAt sl.lvl i R with
  | none => rfl
  | some c => simp only [mp.stop i c hc]; simp

theorem HitPath.level (hp : HitPath sl.lvl (sl.decAt dec) G h S) {i : Nat}
    (L : Linked sl.get sl.lvl ids) (hids : ids = G ++ h :: S) (hi : i < 40) (hlen : ids.length ≤ sl.nodes.length)
    (hih : sl.lvl h ≤ i + 1) :
    ∃ cur, sl.nextAt (lastAt sl.lvl (i + 1) G) i = .ret cur ∧
      walk dec sl i (sl.nodes.length + 1) (lastAt sl.lvl (i + 1) G) cur =
        if i < sl.lvl h then .ret (.inl h) else .ret (.inr (lastAt sl.lvl i G)) := by
  by_cases hl : i < sl.lvl h
  · obtain ⟨cur, h1, h2⟩ := level_path (dec := dec) (i := i) L hids hi hlen
      (fun A q B e hB hq => hp.go A q B e hB (by omega))
      (fun c hc => by rw [firstAt_cons_pos hl] at hc; injection hc with hc; subst hc; rw [hp.hit]; simp)
    refine ⟨cur, h1, ?_⟩
    rw [h2, firstAt_cons_pos hl, if_pos hl]
    simp only [hp.hit]; simp
  · obtain ⟨cur, h1, h2⟩ := level_path (dec := dec) (i := i) L hids hi hlen
      (fun A q B e hB hq => hp.go A q B e hB (by omega))
      (fun c hc => by rw [firstAt_cons_neg hl] at hc; rw [hp.stop i c (by omega) hc]; simp)
    refine ⟨cur, h1, ?_⟩
    rw [h2, firstAt_cons_neg hl, if_neg hl]
    cases hc : firstAt sl.lvl i S with
    | none => rfl
    | some c => simp only [hp.stop i c (by omega) hc]; simp

theorem MissPath.findOuter (mp : MissPath sl.lvl (sl.decAt dec) G R)
    (L : Linked sl.get sl.lvl ids) (hids : ids = G ++ R) (hlen : ids.length ≤ sl.nodes.length) (i : Nat) (hi : i ≤ 40) :
    findOuter dec sl i (lastAt sl.lvl i G) = .ret (.inr (lastAt sl.lvl 0 G)) := by
  induction i with
  | zero => rfl
  | succ i ih =>
    obtain ⟨cur, h1, h2⟩ := mp.level (i := i) L hids (by omega) hlen
    simp only [Stl4go.findOuter, h1, h2, Outcome.ret_bind]
    exact ih (by omega)

theorem HitPath.findOuter (hp : HitPath sl.lvl (sl.decAt dec) G h S)
    (L : Linked sl.get sl.lvl ids) (hids : ids = G ++ h :: S) (hlen : ids.length ≤ sl.nodes.length) (hh : 0 < sl.lvl h)
    (i : Nat) (hi : i ≤ 40) (hih : sl.lvl h ≤ i) :
    findOuter dec sl i (lastAt sl.lvl i G) = .ret (.inl h) := by
  induction i with
  | zero => omega
  | succ i ih =>
    obtain ⟨cur, h1, h2⟩ := hp.level (i := i) L hids (by omega) hlen hih
    simp only [Stl4go.findOuter, h1, h2, Outcome.ret_bind]
    by_cases hl : i < sl.lvl h
    · rw [if_pos hl]; rfl
    · rw [if_neg hl]; exact ih (by omega) (by omega)

theorem HitPath.prevOuter (hp : HitPath sl.lvl (sl.decAt dec) G h S)
    (L : Linked sl.get sl.lvl ids) (hids : ids = G ++ h :: S) (hlen : ids.length ≤ sl.nodes.length) (hh : 0 < sl.lvl h)
    (i : Nat) (hi : i ≤ 40) (hih : sl.lvl h ≤ i) (prevs : List (Option Ref)) (hpl : i ≤ prevs.length) :
    ∃ prevs', prevOuter dec sl i (lastAt sl.lvl i G) prevs = .ret (some h, prevs') ∧ prevs'.length = prevs.length := by
  induction i generalizing prevs with
  | zero => omega
  | succ i ih =>
    obtain ⟨cur, h1, h2⟩ := hp.level (i := i) L hids (by omega) hlen hih
    simp only [Stl4go.prevOuter, h1, h2, Outcome.ret_bind]
    by_cases hl : i < sl.lvl h
    · rw [if_pos hl]; exact ⟨prevs, rfl, rfl⟩
    · rw [if_neg hl]
      obtain ⟨prevs', e1, e2⟩ := ih (by omega) (by omega) (prevs.set i (some (lastAt sl.lvl i G))) (by simp; omega)
      refine ⟨prevs', ?_, by simpa using e2⟩
      show ((setIdx prevs i (some (lastAt sl.lvl i G))) >>= _) = _
      rw [setIdx_of_lt (by omega)]; exact e1

theorem MissPath.prevOuter (mp : MissPath sl.lvl (sl.decAt dec) G R)
    (L : Linked sl.get sl.lvl ids) (hids : ids = G ++ R) (hlen : ids.length ≤ sl.nodes.length) (i : Nat) (hi : i ≤ 40)
    (prevs : List (Option Ref)) (hpl : i ≤ prevs.length) :
    ∃ prevs', prevOuter dec sl i (lastAt sl.lvl i G) prevs = .ret (none, prevs') ∧ prevs'.length = prevs.length ∧
      (∀ x, x < i → prevs'[x]? = some (some (lastAt sl.lvl x G))) ∧ ∀ x, i ≤ x → prevs'[x]? = prevs[x]? := by
  induction i generalizing prevs with
  | zero => exact ⟨prevs, rfl, rfl, by simp, by simp⟩
  | succ i ih =>
    obtain ⟨cur, h1, h2⟩ := mp.level (i := i) L hids (by omega) hlen
    obtain ⟨prevs', e1, e2, e3, e4⟩ := ih (by omega) (prevs.set i (some (lastAt sl.lvl i G))) (by simp; omega)
    simp only [Stl4go.prevOuter, h1, h2, Outcome.ret_bind]
    refine ⟨prevs', ?_, by simpa using e2, ?_, ?_⟩
    · show ((setIdx prevs i (some (lastAt sl.lvl i G))) >>= _) = _
      rw [setIdx_of_lt (by omega)]; exact e1
    · intro x hx
      by_cases hxi : x = i
      · subst hxi
        rw [e4 x (by omega), List.getElem?_set_self (by omega)]
      · exact e3 x (by omega)
    · intro x hx
      rw [e4 x (by omega), List.getElem?_set_ne (by omega)]

end
end Stl4go
