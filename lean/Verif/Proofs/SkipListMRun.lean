import Verif.Proofs.SkipListM
/-! # Skip list with an effectful compare function: which calls are made, how many, and histories -/
namespace Stl4go
variable {K V τ α β : Type}

/-! ## The loops see keys of the list only, and never go back -/

/-- `r` is where a search stands that has passed `A`, on level `i` or above. -/
def RefAt (lvl : Nat → Nat) (i : Nat) (A : List Nat) (r : Ref) : Prop :=
  (r = .head ∧ A = []) ∨ ∃ A' p, A = A' ++ [p] ∧ r = .node p ∧ i < lvl p

theorem RefAt.lower {lvl : Nat → Nat} {i j : Nat} {A : List Nat} {r : Ref} (h : RefAt lvl j A r) (hij : i ≤ j) : RefAt lvl i A r := by
  rcases h with h | ⟨A', p, h1, h2, h3⟩
  · exact .inl h
  · exact .inr ⟨A', p, h1, h2, by omega⟩

variable {sl : SL K V} {ids A B : List Nat} {dec : K → Dec}

theorem RefAt.next (L : Linked sl.get sl.lvl ids) {i : Nat} {r : Ref} (h : RefAt sl.lvl i A r) (hi : i < 40) (e : ids = A ++ B) :
    sl.nextAt r i = .ret (firstAt sl.lvl i B) := by
  apply SL.nextAt_of_get
  rcases h with ⟨rfl, rfl⟩ | ⟨A', p, rfl, rfl, hp⟩
  · rw [L.head_get i hi, e]; rfl
  · exact L.node_get A' p B (by simp [e]) i hp

theorem walk_any (L : Linked sl.get sl.lvl ids) {i : Nat} (hi : i < 40) : ∀ (fuel : Nat) (A B : List Nat) (r : Ref),
    ids = A ++ B → RefAt sl.lvl i A r → B.length < fuel →
    (∀ k ∈ walkKeys dec sl i fuel (firstAt sl.lvl i B), ∃ p ∈ ids, ∃ v, sl.kv p = some (k, v)) ∧
    ((∃ p, walk dec sl i fuel r (firstAt sl.lvl i B) = .ret (.inl p) ∧ p ∈ ids ∧
        (walkKeys dec sl i fuel (firstAt sl.lvl i B)).length ≤ B.length + 1) ∨
     ∃ A2 B2 r2, ids = A2 ++ B2 ∧ walk dec sl i fuel r (firstAt sl.lvl i B) = .ret (.inr r2) ∧ RefAt sl.lvl i A2 r2 ∧
        (walkKeys dec sl i fuel (firstAt sl.lvl i B)).length + B2.length ≤ B.length + 1) := by
  intro fuel
  induction fuel with
  | zero => intro A B r _ _ h; omega
  | succ fuel ih =>
    intro A B r e hr hf
    cases hc : firstAt sl.lvl i B with
    | none => exact ⟨by simp [walkKeys], .inr ⟨A, B, r, e, by simp [walk], hr, by simp [walkKeys]⟩⟩
    | some c =>
      obtain ⟨P, Q, rfl, hic, hP⟩ := firstAt_some hc
      have hcm : c ∈ ids := by rw [e]; simp
      obtain ⟨⟨k, v⟩, hkv⟩ := SL.kv_of_lvl (sl := sl) (p := c) (by omega)
      obtain ⟨n, hn, hk, _⟩ := SL.kv_some hkv
      have hd : sl.deref c = .ret n := idx_of_get hn
      have hget := L.node_get (A ++ P) c Q (by rw [e]; simp) i hic
      rw [SL.get_node hn] at hget
      simp only at hk
      subst hk
      simp only [walkKeys, walk, hd, Outcome.ret_bind, idx_of_get hget]
      cases hdec : dec n.key with
      | hit =>
        refine ⟨?_, .inl ⟨c, rfl, hcm, by simp⟩⟩
        intro k' hk'; simp at hk'; subst hk'; exact ⟨c, hcm, v, hkv⟩
      | stop =>
        refine ⟨?_, .inr ⟨A, P ++ c :: Q, r, e, rfl, hr, by simp; omega⟩⟩
        intro k' hk'; simp at hk'; subst hk'; exact ⟨c, hcm, v, hkv⟩
      | go =>
        have hr' : RefAt sl.lvl i (A ++ P ++ [c]) (.node c) := .inr ⟨A ++ P, c, rfl, rfl, hic⟩
        obtain ⟨h1, h2⟩ := ih (A ++ P ++ [c]) Q (.node c) (by rw [e]; simp) hr' (by simp at hf; omega)
        refine ⟨?_, ?_⟩
        · intro k' hk'
          simp only [List.mem_cons] at hk'
          rcases hk' with rfl | hk'
          · exact ⟨c, hcm, v, hkv⟩
          · exact h1 k' hk'
        · rcases h2 with ⟨p, h3, h4, h5⟩ | ⟨A2, B2, r2, h3, h4, h5, h6⟩
          · exact .inl ⟨p, h3, h4, by simp; omega⟩
          · exact .inr ⟨A2, B2, r2, h3, h4, h5, by simp; omega⟩

theorem outerKeys_any (L : Linked sl.get sl.lvl ids) (hlen : ids.length ≤ sl.nodes.length) : ∀ (i : Nat) (A B : List Nat) (r : Ref),
    i ≤ 40 → ids = A ++ B → RefAt sl.lvl (i - 1) A r →
    (∀ k ∈ outerKeys dec sl i r, ∃ p ∈ ids, ∃ v, sl.kv p = some (k, v)) ∧ (outerKeys dec sl i r).length ≤ B.length + i := by
  intro i
  induction i with
  | zero => intro A B r _ _ _; simp [outerKeys]
  | succ i ih =>
    intro A B r hi e hr
    have hn := hr.next L (by omega) e
    simp only [Nat.add_sub_cancel] at hr hn
    obtain ⟨h1, h2⟩ := walk_any (dec := dec) L (i := i) (by omega) (sl.nodes.length + 1) A B r e hr (by
      rw [e] at hlen; simp at hlen; omega)
    simp only [outerKeys, hn]
    rcases h2 with ⟨p, h3, h4, h5⟩ | ⟨A2, B2, r2, h3, h4, h5, h6⟩
    · simp only [h3, List.append_nil]
      exact ⟨h1, by omega⟩
    · obtain ⟨g1, g2⟩ := ih A2 B2 r2 (by omega) h3 (h5.lower (by omega))
      simp only [h4, List.mem_append, List.length_append]
      exact ⟨fun k hk => hk.elim (h1 k) (g1 k), by omega⟩

section
variable {less : K → K → Bool} {m : List (K × V)}

/-- A key that belongs to a node of the list. -/
def Known (sl : SL K V) (ids : List Nat) (k : K) : Prop := ∃ p ∈ ids, ∃ v, sl.kv p = some (k, v)

theorem SLInv.known (h : SLInv less sl ids m) {k : K} (hk : Known sl ids k) : k ∈ m.map Prod.fst := by
  obtain ⟨p, hp, v, e⟩ := hk
  obtain ⟨e', he, hkv⟩ := mem_kv h.kvs hp
  rw [hkv] at e; injection e with e; subst e
  exact List.mem_map_of_mem he

theorem SLInv.outerKeys (h : SLInv less sl ids m) (dec : K → Dec) :
    (∀ k ∈ outerKeys dec sl sl.level .head, Known sl ids k) ∧ (outerKeys dec sl sl.level .head).length ≤ ids.length + sl.level :=
  outerKeys_any h.linked h.count sl.level [] ids .head h.level_le rfl (.inl ⟨rfl, rfl⟩)

theorem SLInv.keyOf (h : SLInv less sl ids m) {p : Option Nat} (hp : ∀ q, p = some q → q ∈ ids) :
    (∀ k ∈ keyOf sl p, Known sl ids k) ∧ (keyOf sl p).length ≤ 1 := by
  cases p with
  | none => simp [Stl4go.keyOf]
  | some q =>
    have hq := hp q rfl
    obtain ⟨⟨k, v⟩, _, hkv⟩ := mem_kv h.kvs hq
    obtain ⟨n, hn, hk, _⟩ := SL.kv_some hkv
    simp only [Stl4go.keyOf, SL.deref, idx_of_get hn, hk]
    exact ⟨by intro k' hk'; simp at hk'; subst hk'; exact ⟨q, hq, v, hkv⟩, by simp⟩

/-- All calls pass a key of the list first and the key of the operation second. -/
def GoodCalls (sl : SL K V) (ids : List Nat) (key : K) (ps : List (K × K)) : Prop := ∀ p ∈ ps, p.2 = key ∧ Known sl ids p.1

theorem GoodCalls.withKey {key : K} {ks : List K} (h : ∀ k ∈ ks, Known sl ids k) : GoodCalls sl ids key (withKey key ks) := by
  intro p hp
  simp only [Stl4go.withKey, List.mem_map] at hp
  obtain ⟨k, hk, rfl⟩ := hp
  exact ⟨rfl, h k hk⟩

theorem GoodCalls.append {key : K} {ps qs : List (K × K)} (h : GoodCalls sl ids key ps) (h' : GoodCalls sl ids key qs) :
    GoodCalls sl ids key (ps ++ qs) := by
  intro p hp
  rcases List.mem_append.1 hp with hp | hp
  · exact h p hp
  · exact h' p hp

theorem withKey_length (key : K) (ks : List K) : (withKey key ks).length = ks.length := by simp [withKey]

theorem SLInv.lowerBound_mem (h : SLInv less sl ids m) (c : K → K → Int) (key : K) :
    ∃ p, SL.lowerBoundF c sl key = .ret p ∧ ∀ q, p = some q → q ∈ ids := by
  rcases h.search ((SLImpl.func c).dec key) with ⟨iG, iR, G, R, p⟩ | ⟨iG, q, iS, G, e, S, p⟩
  · exact ⟨_, h.lowerBound_missA (impl := .func c) p, fun q hq => by
      rw [p.ids_eq]; exact List.mem_append_right _ (List.mem_of_mem_head? hq)⟩
  · refine ⟨_, h.lowerBound_hitA (impl := .func c) p, fun q' hq => ?_⟩
    injection hq with hq
    subst hq
    rw [p.ids_eq]; simp

theorem SLInv.removeNode_mem (h : SLInv less sl ids m) (c : K → K → Int) (key : K) : ∀ q, removeNode c key sl = some q → q ∈ ids := by
  obtain ⟨iG, iR, G, R, p⟩ := h.searchP (.func c) key
  obtain ⟨prevs, h1, h2, h3⟩ := h.findPrevNodesA p
  have h0 := h.store h1
  have hn : (sl.storePrevs prevs).nextAt (lastAt sl.lvl 0 iG) 0 = .ret iR.head? := h0.next_G (iG := iG) (R := iR) p.ids_eq
  have hp0 : prevAt prevs 0 = .ret (lastAt sl.lvl 0 iG) := prevAt_of_get (h2 0 h.level_pos)
  intro q hq
  simp only [removeNode, h3, hp0, Outcome.ret_bind, hn] at hq
  rw [p.ids_eq]; exact List.mem_append_right _ (List.mem_of_mem_head? hq)

/-- The further call of `Find`, `UpperBound` or `Remove`. -/
def opExtra (c : K → K → Int) (sl : SL K V) : SMOp K V → List K
  | .remove k => keyOf sl (removeNode c k sl)
  | .update k _ | .find k | .has k | .upperBound k => match SL.lowerBoundF c sl k with
    | .ret p => keyOf sl p
    | _ => []
  | _ => []

/-- The decision of the loops of an operation. -/
def opDec (c : K → K → Int) (op : SMOp K V) (key : K) : K → Dec :=
  match op with
  | .remove _ => decPF c key
  | _ => decF c key

theorem opCalls_eq (c : K → K → Int) (sl : SL K V) (op : SMOp K V) :
    opCalls c sl op = match op.key? with
      | some key => withKey key (outerKeys (opDec c op key) sl sl.level .head) ++ withKey key (opExtra c sl op)
      | none => [] := by
  cases op <;> simp [opCalls, SMOp.key?, opDec, opExtra, lowerCalls, nodeCalls, removeCalls, withKey] <;> rfl

theorem SLInv.opExtra (h : SLInv less sl ids m) (c : K → K → Int) (op : SMOp K V) :
    (∀ k ∈ opExtra c sl op, Known sl ids k) ∧ (opExtra c sl op).length ≤ 1 := by
  have hn : ∀ key, (∀ k ∈ (match SL.lowerBoundF c sl key with | .ret p => Stl4go.keyOf sl p | _ => []), Known sl ids k) ∧
      (match SL.lowerBoundF c sl key with | .ret p => Stl4go.keyOf sl p | _ => []).length ≤ 1 := by
    intro key
    obtain ⟨p, e, hp⟩ := h.lowerBound_mem c key
    simp only [e]
    exact h.keyOf hp
  cases op with
  | remove k => exact h.keyOf (h.removeNode_mem c k)
  | update k v => exact hn k
  | find k => exact hn k
  | has k => exact hn k
  | upperBound k => exact hn k
  | _ => simp [Stl4go.opExtra]

/-- The calls of an operation, whatever the comparison. -/
theorem SLInv.opCalls (h : SLInv less sl ids m) (c : K → K → Int) (op : SMOp K V) :
    (∀ p ∈ opCalls c sl op, op.key? = some p.2 ∧ p.1 ∈ m.map Prod.fst) ∧ (opCalls c sl op).length ≤ m.length + sl.level + 1 := by
  rw [opCalls_eq]
  cases hk : op.key? with
  | none => simp
  | some key =>
    obtain ⟨a1, a2⟩ := h.outerKeys (opDec c op key)
    obtain ⟨b1, b2⟩ := h.opExtra c op
    have hg := (GoodCalls.withKey (key := key) a1).append (GoodCalls.withKey b1)
    refine ⟨fun p hp => ⟨by rw [(hg p hp).1], h.known (hg p hp).2⟩, ?_⟩
    simp only [List.length_append, withKey_length]
    rw [h.len_m] at a2
    omega

/-! ## The number of calls for a lawful comparison -/

/-- The nodes with no higher node after them. -/
def sufMax (lvl : Nat → Nat) : List Nat → List Nat
  | [] => []
  | q :: G => if ∀ x ∈ G, lvl x ≤ lvl q then q :: sufMax lvl G else sufMax lvl G

theorem sufMax_length (lvl : Nat → Nat) (G : List Nat) : (sufMax lvl G).length ≤ G.length := by
  induction G with
  | nil => simp [sufMax]
  | cons q G ih => simp only [sufMax]; split <;> simp <;> omega

theorem sufMax_level {lvl : Nat → Nat} {i : Nat} {post : List Nat} (h : ∀ q ∈ post, lvl q ≤ i + 1) :
    (post.filter (fun q => i < lvl q)).length ≤ ((sufMax lvl post).filter (fun q => lvl q = i + 1)).length := by
  induction post with
  | nil => simp [sufMax]
  | cons q post ih =>
    have ih := ih (fun x hx => h x (by simp [hx]))
    have hq := h q (by simp)
    simp only [sufMax]
    by_cases hi : i < lvl q
    · have e : lvl q = i + 1 := by omega
      rw [if_pos (fun x hx => by rw [e]; exact h x (by simp [hx]))]
      simp [e] at ih ⊢; omega
    · rw [List.filter_cons_of_neg (by simpa using hi)]
      refine Nat.le_trans ih ?_
      split
      · rw [List.filter_cons_of_neg (by simp; omega)]; exact Nat.le_refl _
      · exact Nat.le_refl _

theorem sufMax_append (lvl : Nat → Nat) (f : Nat → Bool) (A B : List Nat) :
    ((sufMax lvl B).filter f).length ≤ ((sufMax lvl (A ++ B)).filter f).length := by
  induction A with
  | nil => simp
  | cons q A ih =>
    simp only [List.cons_append, sufMax]
    split
    · refine Nat.le_trans ih ?_
      rw [List.filter_cons]; split <;> simp
    · exact ih

theorem filter_split (lvl : Nat → Nat) (i : Nat) (l : List Nat) :
    (l.filter (fun q => lvl q ≤ i + 1)).length = (l.filter (fun q => lvl q ≤ i)).length + (l.filter (fun q => lvl q = i + 1)).length := by
  induction l with
  | nil => rfl
  | cons q l ih =>
    simp only [List.filter_cons]
    by_cases h1 : lvl q ≤ i
    · have : lvl q ≤ i + 1 := by omega
      have h3 : ¬ lvl q = i + 1 := by omega
      simp [h1, this, h3, ih]; omega
    · by_cases h2 : lvl q = i + 1
      · have h3 : ¬ i + 1 ≤ i := by omega
        simp [h2, h3, ih]; omega
      · have : ¬ lvl q ≤ i + 1 := by omega
        simp [h1, this, h2, ih]

theorem walkKeys_split {pre G2 H S : List Nat} {i fuel : Nat}
    (L : Linked sl.get sl.lvl ids) (sp : Split dec sl ids (pre ++ G2) H S) (hf : G2.length < fuel) :
    (walkKeys dec sl i fuel (firstAt sl.lvl i (G2 ++ (H ++ S)))).length ≤ (G2.filter (fun q => i < sl.lvl q)).length + 1 := by
  induction fuel generalizing pre G2 with
  | zero => omega
  | succ fuel ih =>
    rw [firstAt_append]
    cases hc : firstAt sl.lvl i G2 with
    | some c =>
      obtain ⟨P, Q, rfl, hic, hP⟩ := firstAt_some hc
      obtain ⟨e, hkv, hdec⟩ := sp.go c (by simp)
      obtain ⟨n, hn, hk, _⟩ := SL.kv_some hkv
      have hget := L.node_get (pre ++ P) c (Q ++ (H ++ S)) (by rw [sp.ids_eq]; simp) i hic
      rw [SL.get_node hn] at hget
      have hids : pre ++ (P ++ c :: Q) = (pre ++ P ++ [c]) ++ Q := by simp
      have := ih (pre := pre ++ P ++ [c]) (G2 := Q) (by rw [← hids]; exact sp) (by simp at hf; omega)
      simp only [Option.some_or, walkKeys, SL.deref, idx_of_get hn, hk, hdec, idx_of_get hget, List.length_cons, List.filter_append,
        List.length_append]
      rw [List.filter_cons_of_pos (by simpa using hic), List.length_cons]
      omega
    | none =>
      rw [Option.none_or]
      cases hh : firstAt sl.lvl i (H ++ S) with
      | none => simp [walkKeys]
      | some c =>
        obtain ⟨P, Q, e, _, _⟩ := firstAt_some hh
        have hm : c ∈ H ++ S := by rw [e]; simp
        have : ∃ e, sl.kv c = some e ∧ dec e.1 ≠ .go := by
          rcases List.mem_append.1 hm with hm | hm
          · obtain ⟨e, h1, h2⟩ := sp.hit c hm; exact ⟨e, h1, by simp [h2]⟩
          · obtain ⟨e, h1, h2⟩ := sp.stop c hm; exact ⟨e, h1, by simp [h2]⟩
        obtain ⟨e, hkv, hdec⟩ := this
        obtain ⟨n, hn, hk, _⟩ := SL.kv_some hkv
        simp only [walkKeys, SL.deref, idx_of_get hn, hk]
        cases hd : dec e.1 with
        | go => exact absurd hd hdec
        | hit => simp
        | stop => simp

theorem outerKeys_split {G H S : List Nat} (L : Linked sl.get sl.lvl ids) (sp : Split dec sl ids G H S)
    (hlen : ids.length ≤ sl.nodes.length) (i : Nat) (hi : i ≤ 40) :
    (outerKeys dec sl i (lastAt sl.lvl i G)).length ≤ ((sufMax sl.lvl G).filter (fun q => sl.lvl q ≤ i)).length + i := by
  induction i with
  | zero => simp [outerKeys]
  | succ i ih =>
    have hpost : ∃ pre post, G = pre ++ post ∧ lastAt sl.lvl (i + 1) G = lastAt sl.lvl i pre ∧ ∀ q ∈ post, sl.lvl q ≤ i + 1 := by
      rcases lastAt_cases sl.lvl (i + 1) G with ⟨h1, h2⟩ | ⟨A, p, B, rfl, h2, h3, h4⟩
      · exact ⟨[], G, rfl, by rw [h1]; rfl, h2⟩
      · exact ⟨A ++ [p], B, by simp, by rw [h2, lastAt_snoc (by omega) (by simp)], h4⟩
    obtain ⟨pre, post, rfl, e, hp⟩ := hpost
    have hf : post.length < sl.nodes.length + 1 := by
      have := sp.ids_eq; subst this
      simp at hlen; omega
    have hn : sl.nextAt (lastAt sl.lvl i pre) i = .ret (firstAt sl.lvl i (post ++ (H ++ S))) := by
      apply SL.nextAt_of_get
      have := sp.ids_eq; subst this
      rw [List.append_assoc] at L
      exact L.get_lastAt (by omega)
    have hw := walk_spec (i := i) L sp hf
    have hk := walkKeys_split (i := i) L sp hf
    rw [e]
    simp only [outerKeys, hn, hw]
    have h1 := sufMax_level hp
    have h2 := sufMax_append sl.lvl (fun q => sl.lvl q = i + 1) pre post
    rw [filter_split]
    have ih := ih (by omega)
    cases firstAt sl.lvl i H with
    | some h => simp only [List.append_nil]; omega
    | none => simp only [List.length_append]; omega

theorem smaller_filter (hw : StrictWeak less) {key : K} {m G H S : List (K × V)} (sp : SSplit less key m G H S) :
    m.filter (fun e => less e.1 key) = G := by
  rw [sp.eq, List.filter_append, List.filter_append, List.filter_eq_self.2 sp.go, List.filter_eq_nil_iff.2, List.filter_eq_nil_iff.2]
  · simp
  · intro e he
    have h1 := sp.stop e he
    cases h2 : less e.1 key with
    | false => simp
    | true => have := hw.trans _ _ _ h1 h2; rw [hw.irrefl] at this; simp at this
  · intro e he; simp [(sp.hit e he).1]

/-- The calls of an operation, for a lawful comparison: at most one for each smaller key, one for each level, and one more. -/
theorem SLInv.opCalls_lawful {c : K → K → Int} (hl : LawfulCmp c) (h : SLInv (SLImpl.func c).less sl ids m) (op : SMOp K V) {key : K}
    (hk : op.key? = some key) :
    ∃ iG R, ids = iG ++ R ∧ iG.length = (m.filter (fun e => (SLImpl.func c).less e.1 key)).length ∧
      (Stl4go.opCalls c sl op).length ≤ (sufMax sl.lvl iG).length + sl.level + 1 := by
  have hl' : (SLImpl.func c).Lawful := hl
  obtain ⟨iG, iH, iS, G, H, S, p⟩ := h.pos hl' key
  have hG : iG.length = G.length := by have := congrArg List.length p.kG; simpa using this
  refine ⟨iG, iH ++ iS, p.ids_eq, by rw [smaller_filter hl'.weak p.sp, hG], ?_⟩
  rw [opCalls_eq, hk]
  simp only [List.length_append, withKey_length]
  have hb := (h.opExtra c op).2
  have hh : Ref.head = lastAt sl.lvl sl.level iG := (h.head_lastAt (fun x hx => by rw [p.ids_eq]; simp [hx]) (Nat.le_refl _)).symm
  have ho : (Stl4go.outerKeys (opDec c op key) sl sl.level .head).length ≤ (sufMax sl.lvl iG).length + sl.level := by
    rw [hh]
    have hx : ∀ dec G H S, Split dec sl ids G H S →
        (Stl4go.outerKeys dec sl sl.level (lastAt sl.lvl sl.level G)).length ≤ (sufMax sl.lvl G).length + sl.level := by
      intro dec G H S sp
      refine Nat.le_trans (outerKeys_split h.linked sp h.count sl.level h.level_le) ?_
      have := List.length_filter_le (fun q => decide (sl.lvl q ≤ sl.level)) (sufMax sl.lvl G)
      omega
    cases op with
    | remove k => exact hx _ _ _ _ (p.splitP hl')
    | _ => exact hx _ _ _ _ (p.split hl')
  omega

/-! ## Levels -/

/-- Same level, same node levels. -/
structure SL.LFrame (s s' : SL K V) : Prop where
  level : s'.level = s.level
  lvl : s'.lvl = s.lvl
  count : s'.nodes.length = s.nodes.length

theorem SL.LFrame.refl (s : SL K V) : s.LFrame s := ⟨rfl, rfl, rfl⟩
theorem SL.LFrame.trans {s1 s2 s3 : SL K V} (h : s1.LFrame s2) (h' : s2.LFrame s3) : s1.LFrame s3 :=
  ⟨h'.level.trans h.level, h'.lvl.trans h.lvl, h'.count.trans h.count⟩
theorem SL.LFrame.cache (s : SL K V) (c : List (Option Ref)) : s.LFrame { s with prevsCache := c } := ⟨rfl, rfl, rfl⟩

theorem SL.lvl_set {s : SL K V} {p : Nat} {n n' : SLNode K V} (hn : s.nodes[p]? = some n) (hl : n'.next.length = n.next.length) :
    SL.lvl { s with nodes := s.nodes.set p n' } = s.lvl := by
  funext x
  simp only [SL.lvl]
  by_cases e : p = x
  · subst e
    rw [List.getElem?_set_self (List.getElem?_eq_some_iff.1 hn).1, hn]; exact hl
  · rw [List.getElem?_set_ne e]

theorem idx_get_ret {T : Type} {a : List T} {i : Nat} {v : T} (h : idx a i = .ret v) : a[i]? = some v := by
  simp only [idx] at h
  split at h
  · next e => rw [e]; injection h with h; rw [h]
  · simp at h

theorem setIdx_ret {T : Type} {a b : List T} {i : Nat} {v : T} (h : setIdx a i v = .ret b) : b = a.set i v := by
  simp only [setIdx] at h
  split at h
  · injection h with h; exact h.symm
  · simp at h

theorem SL.setNextAt_frame {s s' : SL K V} {r : Ref} {i : Nat} {v : Option Nat} (h : s.setNextAt r i v = .ret s') : s.LFrame s' := by
  cases r with
  | head =>
    simp only [SL.setNextAt] at h
    obtain ⟨hd, _, h⟩ := Outcome.bind_ret h
    simp at h; subst h; exact ⟨rfl, rfl, rfl⟩
  | node p =>
    simp only [SL.setNextAt] at h
    obtain ⟨n, hn, h⟩ := Outcome.bind_ret h
    obtain ⟨nx, hx, h⟩ := Outcome.bind_ret h
    simp at h; subst h
    exact ⟨rfl, SL.lvl_set (idx_get_ret hn) (by simp [setIdx_ret hx]), by simp⟩

theorem SL.setValue_frame {s s' : SL K V} {p : Nat} {v : V} (h : s.setValue p v = .ret s') : s.LFrame s' := by
  simp only [SL.setValue] at h
  obtain ⟨n, hn, h⟩ := Outcome.bind_ret h
  simp at h; subst h
  exact ⟨rfl, SL.lvl_set (idx_get_ret hn) rfl, by simp⟩

theorem SL.insertLinks_frame {node : Nat} {prevs : List (Option Ref)} : ∀ (rem i : Nat) (s s' : SL K V),
    SL.insertLinks node prevs rem i s = .ret s' → s.LFrame s' := by
  intro rem
  induction rem with
  | zero => intro i s s' h; simp [SL.insertLinks] at h; subst h; exact .refl _
  | succ rem ih =>
    intro i s s' h
    simp only [SL.insertLinks] at h
    obtain ⟨r, _, h⟩ := Outcome.bind_ret h
    obtain ⟨nx, _, h⟩ := Outcome.bind_ret h
    obtain ⟨s1, h1, h⟩ := Outcome.bind_ret h
    obtain ⟨s2, h2, h⟩ := Outcome.bind_ret h
    exact ((SL.setNextAt_frame h1).trans (SL.setNextAt_frame h2)).trans (ih _ _ _ h)

theorem SL.raiseHead_frame {node : Nat} : ∀ (rem i : Nat) (s s' : SL K V), SL.raiseHead node rem i s = .ret s' → s.LFrame s' := by
  intro rem
  induction rem with
  | zero => intro i s s' h; simp [SL.raiseHead] at h; subst h; exact .refl _
  | succ rem ih =>
    intro i s s' h
    simp only [SL.raiseHead] at h
    obtain ⟨s1, h1, h⟩ := Outcome.bind_ret h
    exact (SL.setNextAt_frame h1).trans (ih _ _ _ h)

theorem SL.unlink_frame {node : Nat} {prevs : List (Option Ref)} : ∀ (rem i : Nat) (s s' : SL K V),
    SL.unlink node prevs rem i s = .ret s' → s.LFrame s' := by
  intro rem
  induction rem with
  | zero => intro i s s' h; simp [SL.unlink] at h; subst h; exact .refl _
  | succ rem ih =>
    intro i s s' h
    simp only [SL.unlink] at h
    obtain ⟨v, _, h⟩ := Outcome.bind_ret h
    obtain ⟨r, _, h⟩ := Outcome.bind_ret h
    obtain ⟨s1, h1, h⟩ := Outcome.bind_ret h
    exact (SL.setNextAt_frame h1).trans (ih _ _ _ h)

/-- Node levels are the same, the level may have sunk. -/
structure SL.Lowered (s s' : SL K V) : Prop where
  level : s'.level ≤ s.level
  lvl : s'.lvl = s.lvl
  count : s'.nodes.length = s.nodes.length

theorem SL.LFrame.lowered {s s' : SL K V} (h : s.LFrame s') : s.Lowered s' := ⟨by rw [h.level]; exact Nat.le_refl _, h.lvl, h.count⟩
theorem SL.Lowered.trans {s1 s2 s3 : SL K V} (h : s1.Lowered s2) (h' : s2.Lowered s3) : s1.Lowered s3 :=
  ⟨Nat.le_trans h'.level h.level, h'.lvl.trans h.lvl, h'.count.trans h.count⟩

theorem SL.lowerLevel_lowered : ∀ (fuel : Nat) (s s' : SL K V), SL.lowerLevel fuel s = .ret s' → s.Lowered s' := by
  intro fuel
  induction fuel with
  | zero => intro s s' h; simp [SL.lowerLevel] at h
  | succ fuel ih =>
    intro s s' h
    simp only [SL.lowerLevel] at h
    split at h
    · obtain ⟨p, _, h⟩ := Outcome.bind_ret h
      cases p with
      | none =>
        have := ih { s with level := s.level - 1 } s' h
        exact ⟨by have := this.level; simp at this; omega, this.lvl, this.count⟩
      | some q => simp at h; subst h; exact (SL.LFrame.refl s).lowered
    · injection h with h; subst h; exact (SL.LFrame.refl s).lowered

/-- A new node of level `l` was added. -/
structure SL.Grown (l : Nat) (s s' : SL K V) : Prop where
  level : s'.level = max l s.level
  lvl : s'.lvl = fun x => if x = s.nodes.length then l else s.lvl x
  count : s'.nodes.length = s.nodes.length + 1

theorem SL.newNode_lvl {s s' : SL K V} {l p : Nat} {key : K} {v : V} (h : s.newNode l key v = .ret (s', p)) :
    s'.level = s.level ∧ s'.lvl = (fun x => if x = s.nodes.length then l else s.lvl x) ∧ s'.nodes.length = s.nodes.length + 1 := by
  simp only [SL.newNode] at h
  split at h
  · injection h with h
    injection h with h1 h2
    subst h1
    refine ⟨rfl, ?_, by simp⟩
    funext x
    simp only [SL.lvl]
    rcases Nat.lt_or_ge x s.nodes.length with hx | hx
    · rw [List.getElem?_append_left hx, if_neg (by omega)]
    · by_cases e : x = s.nodes.length
      · subst e; simp
      · rw [if_neg e, List.getElem?_eq_none (by simp; omega), List.getElem?_eq_none (by omega)]
  · simp at h

theorem SL.insertAt_levels {s s' : SL K V} {rnd : Nat} {key : K} {v : V} {node : Option Nat} {prevs : List (Option Ref)}
    (h : s.insertAt rnd key v node prevs = .ret s') :
    match node with
    | some _ => s.LFrame s'
    | none => ∃ l, s.randomLevel rnd = .ret l ∧ s.Grown l s' := by
  cases node with
  | some p => exact SL.setValue_frame h
  | none =>
    simp only [SL.insertAt] at h
    obtain ⟨l, hr, h⟩ := Outcome.bind_ret h
    obtain ⟨⟨s1, N⟩, h1, h⟩ := Outcome.bind_ret h
    obtain ⟨s2, h2, h⟩ := Outcome.bind_ret h
    obtain ⟨a1, a2, a3⟩ := SL.newNode_lvl h1
    have f2 := SL.insertLinks_frame _ _ _ _ h2
    refine ⟨l, hr, ?_⟩
    split at h
    · next hgt =>
      obtain ⟨s4, h4, h⟩ := Outcome.bind_ret h
      simp at h; subst h
      have f4 := f2.trans (SL.raiseHead_frame _ _ _ _ h4)
      refine ⟨?_, (f4.lvl.trans a2 : _), (f4.count.trans a3 : _)⟩
      rw [f2.level, a1] at hgt
      show l = max l s.level
      exact (Nat.max_eq_left (by omega)).symm
    · next hgt =>
      simp at h; subst h
      refine ⟨?_, (f2.lvl.trans a2 : _), (f2.count.trans a3 : _)⟩
      rw [f2.level, a1] at hgt
      exact (f2.level.trans a1).trans (Nat.max_eq_right (by omega)).symm

/-- How an operation changes levels: not at all, or `Remove` and `Clear` lower the level, or `Insert` adds a node. -/
theorem SL.exec_levels {s s' : SL K V} {impl : SLImpl K} {rnd : Nat} {op : SMOp K V} {ob : SMObs K V}
    (h0 : 1 ≤ s.level) (h : s.exec impl rnd op = .ret (s', ob)) :
    s.Lowered s' ∨ ∃ k v l, op = .insert k v ∧ s.randomLevel rnd = .ret l ∧ s.Grown l s' := by
  have hself : ∀ {x : SL K V}, s = x → s.Lowered x := fun e => by subst e; exact (SL.LFrame.refl s).lowered
  cases op with
  | insert k v =>
    simp only [SL.exec, SL.insert_eq, bind_assoc] at h
    obtain ⟨⟨sl1, node, prevs⟩, h1, h⟩ := Outcome.bind_ret h
    obtain ⟨sl2, h2, h⟩ := Outcome.bind_ret h
    simp at h; obtain ⟨rfl, rfl⟩ := h
    have hc : ∃ cache, sl1 = { s with prevsCache := cache } := by
      simp only [SL.findInsertPoint] at h1
      obtain ⟨p0, _, h1⟩ := Outcome.bind_ret h1
      cases impl <;>
      · obtain ⟨w, _, h1⟩ := Outcome.bind_ret h1
        simp at h1
        exact ⟨_, h1.1.symm⟩
    obtain ⟨cache, rfl⟩ := hc
    have := SL.insertAt_levels h2
    cases node with
    | some p => exact .inl ((SL.LFrame.cache s cache).trans this).lowered
    | none =>
      obtain ⟨l, hr, hg⟩ := this
      exact .inr ⟨k, v, l, rfl, hr, ⟨hg.level, hg.lvl, hg.count⟩⟩
  | remove k =>
    left
    simp only [SL.exec, SL.remove_eq, bind_assoc] at h
    obtain ⟨⟨sl1, found⟩, h1, h⟩ := Outcome.bind_ret h
    obtain ⟨⟨sl2, b⟩, h2, h⟩ := Outcome.bind_ret h
    simp at h; obtain ⟨rfl, rfl⟩ := h
    have hc : ∃ cache, sl1 = { s with prevsCache := cache } := by
      simp only [SL.findRemovePoint] at h1
      obtain ⟨⟨s0, prevs⟩, h0, h1⟩ := Outcome.bind_ret h1
      obtain ⟨r, _, h1⟩ := Outcome.bind_ret h1
      obtain ⟨nd, _, h1⟩ := Outcome.bind_ret h1
      have e1 : sl1 = s0 := by
        cases nd with
        | none => simp at h1; exact h1.1.symm
        | some p =>
          obtain ⟨n, _, h1⟩ := Outcome.bind_ret h1
          split at h1 <;> (simp at h1; exact h1.1.symm)
      subst e1
      simp only [SL.findPrevNodes] at h0
      obtain ⟨p0, _, h0⟩ := Outcome.bind_ret h0
      cases impl <;>
      · obtain ⟨p1, _, h0⟩ := Outcome.bind_ret h0
        simp at h0
        exact ⟨_, h0.1.symm⟩
    obtain ⟨cache, rfl⟩ := hc
    refine (SL.LFrame.cache s cache).lowered.trans ?_
    cases found with
    | none => simp [SL.removeAt] at h2; obtain ⟨rfl, _⟩ := h2; exact (SL.LFrame.refl _).lowered
    | some p =>
      obtain ⟨p, prevs⟩ := p
      simp only [SL.removeAt] at h2
      obtain ⟨n, _, h2⟩ := Outcome.bind_ret h2
      obtain ⟨s1, h3, h2⟩ := Outcome.bind_ret h2
      obtain ⟨s2, h4, h2⟩ := Outcome.bind_ret h2
      simp at h2; obtain ⟨rfl, rfl⟩ := h2
      have := (SL.unlink_frame _ _ _ _ h3).lowered.trans (SL.lowerLevel_lowered _ _ _ h4)
      exact ⟨this.level, this.lvl, this.count⟩
  | clear => simp [SL.exec] at h; obtain ⟨rfl, rfl⟩ := h; exact .inl ⟨h0, rfl, rfl⟩
  | update k v =>
    left
    simp only [SL.exec] at h
    obtain ⟨r, _, h⟩ := Outcome.bind_ret h
    cases r with
    | none => simp at h; exact hself h.1
    | some p =>
      obtain ⟨s1, h1, h⟩ := Outcome.bind_ret h
      simp at h; obtain ⟨rfl, rfl⟩ := h
      exact (SL.setValue_frame h1).lowered
  | find k =>
    left
    simp only [SL.exec] at h
    obtain ⟨r, _, h⟩ := Outcome.bind_ret h
    cases r with
    | none => simp at h; exact hself h.1
    | some p =>
      obtain ⟨v, h1, h⟩ := Outcome.bind_ret h
      simp at h; exact hself h.1
  | has k =>
    left
    simp only [SL.exec] at h
    obtain ⟨r, _, h⟩ := Outcome.bind_ret h
    simp at h; exact hself h.1
  | len => left; simp [SL.exec] at h; exact hself h.1
  | isEmpty => left; simp [SL.exec] at h; exact hself h.1
  | iterate =>
    left
    simp only [SL.exec] at h
    obtain ⟨r, _, h⟩ := Outcome.bind_ret h
    obtain ⟨r', _, h⟩ := Outcome.bind_ret h
    simp at h; exact hself h.1
  | lowerBound k =>
    left
    simp only [SL.exec] at h
    obtain ⟨r, _, h⟩ := Outcome.bind_ret h
    obtain ⟨r', _, h⟩ := Outcome.bind_ret h
    simp at h; exact hself h.1
  | upperBound k =>
    left
    simp only [SL.exec] at h
    obtain ⟨r, _, h⟩ := Outcome.bind_ret h
    obtain ⟨r', _, h⟩ := Outcome.bind_ret h
    simp at h; exact hself h.1

/-! ## Histories -/

theorem SLInv.cache (h : SLInv less sl ids m) {c : List (Option Ref)} (hc : c.length = sl.prevsCache.length) :
    SLInv less { sl with prevsCache := c } ids m := { h with cache_len := hc.trans h.cache_len }

theorem callAll_panic {cmp : CmpM K τ} {ps : List (K × K)} {t t' : τ} (h : callAll cmp ps t = .panic t') :
    ∃ p ∈ ps, ∃ s s', cmp p.1 p.2 s = .panic s' := by
  induction ps generalizing t with
  | nil => simp [callAll] at h
  | cons p ps ih =>
    simp only [callAll, GoM.bind_def] at h
    cases e : cmp p.1 p.2 t with
    | ok r t1 =>
      rw [e] at h
      obtain ⟨q, hq, hx⟩ := ih h
      exact ⟨q, by simp [hq], hx⟩
    | panic t1 => exact ⟨p, by simp, t, t1, e⟩
    | diverge => rw [e] at h; simp at h

theorem callAll_diverge {cmp : CmpM K τ} {ps : List (K × K)} {t : τ} (h : callAll cmp ps t = .diverge) :
    ∃ p ∈ ps, ∃ s, cmp p.1 p.2 s = .diverge := by
  induction ps generalizing t with
  | nil => simp [callAll] at h
  | cons p ps ih =>
    simp only [callAll, GoM.bind_def] at h
    cases e : cmp p.1 p.2 t with
    | ok r t1 =>
      rw [e] at h
      obtain ⟨q, hq, hx⟩ := ih h
      exact ⟨q, by simp [hq], hx⟩
    | panic t1 => rw [e] at h; simp at h
    | diverge => exact ⟨p, by simp, t, e⟩

/-- Histories, given how the pure model behaves. -/
theorem SLM.run_fallible {cmp : CmpM K τ} {c : K → K → Int} (ha : AgreesWith cmp c)
    {step : List (K × V) → SMOp K V → SMObs K V → List (K × V) → Prop}
    (hstep : ∀ {sl ids m}, SLInv less sl ids m → ∀ (rnd : Nat) (op : SMOp K V), ∃ sl' ids' m' ob,
      sl.exec (.func c) rnd op = .ret (sl', ob) ∧ SLInv less sl' ids' m' ∧ step m op ob m')
    (hgrow : ∀ {m op ob m'}, step m op ob m' → m'.length ≤ m.length + inserts [op]) (h : List (Nat × SMOp K V)) :
    ∀ {sl : SL K V} {ids : List Nat} {m : List (K × V)} {n : Nat} (t : τ), SLInv less sl ids m → m.length ≤ n →
      (3 < sl.level → 2 ^ (sl.level - 3) ≤ n) →
      ∃ ids' m', FallibleRun step (CmpPanics cmp) (CmpHangs cmp) m (opsOf h) (SLM.run cmp ⟨sl, t⟩ h).1 m' ∧
        SLInv less (SLM.run cmp ⟨sl, t⟩ h).2.sl ids' m' ∧ m'.length ≤ n + inserts (opsOf h) ∧
        (3 < (SLM.run cmp ⟨sl, t⟩ h).2.sl.level → 2 ^ ((SLM.run cmp ⟨sl, t⟩ h).2.sl.level - 3) ≤ n + inserts (opsOf h)) := by
  induction h with
  | nil => intro sl ids m n t hi hn hl; exact ⟨ids, m, .nil m, hi, by simpa [inserts, opsOf] using hn, by simpa [inserts, opsOf, SLM.run] using hl⟩
  | cons o h ih =>
    intro sl ids m n t hi hn hl
    obtain ⟨rnd, op⟩ := o
    obtain ⟨sl1, ids1, m1, ob, a1, a2, a3⟩ := hstep hi rnd op
    have hf := exec_follows ha t a1
    have hcall := (hi.opCalls c op).1
    have hins : inserts (opsOf ((rnd, op) :: h)) = inserts [op] + inserts (opsOf h) := by
      simp only [inserts, opsOf, List.map_cons, List.filter_cons, List.filter_nil]
      split <;> simp <;> omega
    have hlevel : 3 < sl1.level → 2 ^ (sl1.level - 3) ≤ n + inserts [op] := by
      intro h3
      rcases SL.exec_levels hi.level_pos a1 with hlow | ⟨k, v, l, rfl, hr, hg⟩
      · have h4 := hlow.level
        have h5 := hl (by omega)
        have : 2 ^ (sl1.level - 3) ≤ 2 ^ (sl.level - 3) := Nat.pow_le_pow_right (by omega) (by omega)
        omega
      · rw [hg.level] at h3 ⊢
        rcases Nat.le_total l sl.level with hle | hle
        · rw [Nat.max_eq_right hle] at h3 ⊢
          have := hl h3; omega
        · rw [Nat.max_eq_left hle] at h3 ⊢
          obtain ⟨l', e1, _, _, e4⟩ := sl.randomLevel_spec rnd
          rw [hr] at e1; injection e1 with e1; subst e1
          have h5 := e4 h3
          rw [hi.len_eq, hi.len_m] at h5
          have : 2 ^ (l - 3) ≤ m.length := by
            have e : ((2 ^ (l - 3) : Nat) : Int) = 2 ^ (l - 3) := by simp
            omega
          omega
    have hlen1 : m1.length ≤ n + inserts [op] := by have := hgrow a3; omega
    simp only [Follows] at hf
    simp only [SLM.run]
    have hops : opsOf ((rnd, op) :: h) = op :: opsOf h := rfl
    cases hc : callAll cmp (opCalls c sl op) t with
    | ok u t' =>
      simp only [hc] at hf
      simp only [hf]
      obtain ⟨ids', m', b1, b2, b3, b4⟩ := ih t' a2 hlen1 hlevel
      refine ⟨ids', m', ?_, b2, ?_, ?_⟩
      · rw [hops]; exact .done a3 b1
      · rw [hins]; omega
      · rw [hins, ← Nat.add_assoc]; exact b4
    | panic t' =>
      simp only [hc] at hf
      obtain ⟨cache, hcl, hf⟩ := hf
      simp only [hf]
      obtain ⟨ids', m', b1, b2, b3, b4⟩ := ih (n := n) t' (hi.cache hcl) hn hl
      refine ⟨ids', m', ?_, b2, ?_, ?_⟩
      · obtain ⟨p, hp, s, s', hx⟩ := callAll_panic hc
        rw [hops]; exact .failed ⟨p.2, p.1, s, s', (hcall p hp).1, hx⟩ b1
      · rw [hins]; omega
      · intro h3; have := b4 h3; rw [hins]; omega
    | diverge =>
      simp only [hc] at hf
      simp only [hf]
      refine ⟨ids, m, ?_, hi, ?_, ?_⟩
      · obtain ⟨p, hp, s, hx⟩ := callAll_diverge hc
        rw [hops]; exact .hung ⟨p.2, p.1, s, (hcall p hp).1, hx⟩
      · omega
      · intro h3; have := hl h3; rw [hins]; omega

theorem LooseStep.grow {same : K → K → Bool} {m m' : List (K × V)} {op : SMOp K V} {ob : SMObs K V} (h : LooseStep same m op ob m') :
    m'.length ≤ m.length + inserts [op] := by
  cases op with
  | insert k v =>
    obtain ⟨_, ⟨A, e, B, rfl, _, rfl⟩ | ⟨A, B, rfl, rfl⟩⟩ := h <;> simp [inserts] <;> omega
  | remove k => rcases h with ⟨_, A, e, B, rfl, _, rfl⟩ | ⟨_, rfl⟩ <;> simp <;> omega
  | clear => obtain ⟨_, rfl⟩ := h; simp
  | update k v => rcases h with ⟨_, A, e, B, rfl, _, rfl⟩ | ⟨_, rfl⟩ <;> simp
  | _ => obtain ⟨rfl, _⟩ := h; simp

/-! ## Recorded calls -/

theorem AgreesWith.logged {cmp : CmpM K τ} {c : K → K → Int} (h : AgreesWith cmp c) : AgreesWith cmp.logged c := by
  intro a b s r s' e
  simp only [CmpM.logged] at e
  cases e1 : cmp a b s.1 with
  | ok r1 t1 =>
    simp only [e1] at e
    injection e with e2 e3
    subst e2
    exact h a b _ _ _ e1
  | panic t1 => simp [e1] at e
  | diverge => simp [e1] at e

/-- Only calls of `ps` are recorded, in this order, and all of them unless one panics. -/
theorem callAll_logged (cmp : CmpM K τ) (ps : List (K × K)) (t : τ) (log : List (K × K)) :
    match callAll cmp.logged ps (t, log) with
    | .ok _ s => s.2 = log ++ ps
    | .panic s => ∃ qs, qs <+: ps ∧ s.2 = log ++ qs
    | .diverge => True := by
  induction ps generalizing t log with
  | nil => simp [callAll]
  | cons p ps ih =>
    simp only [callAll, GoM.bind_def, CmpM.logged]
    cases e1 : cmp p.1 p.2 t with
    | ok r t1 =>
      have := ih t1 (log ++ [p])
      cases e2 : callAll cmp.logged ps (t1, log ++ [p]) with
      | ok u s => simp only [e2] at this ⊢; simpa using this
      | panic s =>
        simp only [e2] at this ⊢
        obtain ⟨qs, h1, h2⟩ := this
        exact ⟨p :: qs, by simpa using h1, by simpa using h2⟩
      | diverge => simp only [e2]
    | panic t1 => exact ⟨[p], by simp, rfl⟩
    | diverge => trivial

theorem Follows.calls {cmp : CmpM K τ} {ps : List (K × K)} {x : GoM (SLS K V (τ × List (K × K))) α} {sl' : SL K V} {a : α} {t : τ}
    (h : Follows cmp.logged ps x ⟨sl, (t, [])⟩ sl' a) {log : List (K × K)} (hl : callsOf (x ⟨sl, (t, [])⟩) = some log) : log <+: ps := by
  have h1 := callAll_logged cmp ps t []
  simp only [Follows] at h
  cases e : callAll cmp.logged ps (t, []) with
  | ok u s =>
    simp only [e] at h h1
    simp only [h, callsOf] at hl
    injection hl with hl
    rw [← hl, h1]; simp
  | panic s =>
    simp only [e] at h h1
    obtain ⟨cache, _, h⟩ := h
    simp only [h, callsOf] at hl
    injection hl with hl
    obtain ⟨qs, h2, h3⟩ := h1
    rw [← hl, h3]; simpa using h2
  | diverge =>
    simp only [e] at h
    simp [h, callsOf] at hl

end
end Stl4go
