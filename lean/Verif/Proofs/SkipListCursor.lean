import Verif.Proofs.SkipListRun
import Verif.Spec.SkipListCursor
/-! # Skip list: iterators and pointers while the list changes -/
namespace Stl4go
variable {K V : Type}

/-! ## The specification at the position of a key -/

section
variable {less : K → K → Bool} {k : K} {m G H S : List (K × V)}

theorem sameKey_iff {a b : K} : sameKey less a b = true ↔ less a b = false ∧ less b a = false := by
  simp [sameKey]

theorem sameKey_go (sp : SSplit less k m G H S) {e : K × V} (he : e ∈ G) : sameKey less k e.1 = false := by
  simp [sameKey, sp.go e he]

theorem sameKey_hit (sp : SSplit less k m G H S) {e : K × V} (he : e ∈ H) : sameKey less k e.1 = true := by
  simp [sameKey, sp.hit e he]

theorem sameKey_stop (sp : SSplit less k m G H S) {e : K × V} (he : e ∈ S) : sameKey less k e.1 = false := by
  simp [sameKey, sp.stop e he]

theorem SMap.succ_split (hw : StrictWeak less) (sp : SSplit less k m G H S) : SMap.succ less m k = S.head?.map (·.1) := by
  have : m.find? (fun e => less k e.1) = S.head? := by
    rw [← List.head?_filter, SMap.upper_split hw sp]
  rw [SMap.succ, this]

theorem SMap.first_split (hw : StrictWeak less) (sp : SSplit less k m G H S) : SMap.first less m k = (H ++ S).head?.map (·.1) := by
  have : m.find? (fun e => !(less e.1 k)) = (H ++ S).head? := by
    rw [← List.head?_filter, SMap.lower_split hw sp]
  rw [SMap.first, this]

theorem SMap.rank_split (hw : StrictWeak less) (sp : SSplit less k m G H S) : SMap.rank less m k = G.length := by
  have h1 : G.filter (fun e => less e.1 k) = G := List.filter_eq_self.2 (fun e he => sp.go e he)
  have h2 : H.filter (fun e => less e.1 k) = [] := List.filter_eq_nil_iff.2 (fun e he => by simp [sp.hit e he])
  have h3 : S.filter (fun e => less e.1 k) = [] := List.filter_eq_nil_iff.2 (fun e he => by simp [hw.asymm (sp.stop e he)])
  rw [SMap.rank, sp.eq, List.filter_append, List.filter_append, h1, h2, h3]; simp

theorem SMap.same_split (sp : SSplit less k m G H S) : m.filter (fun e => sameKey less k e.1) = H := by
  have h1 : G.filter (fun e => sameKey less k e.1) = [] := List.filter_eq_nil_iff.2 (fun e he => by simp [sameKey_go sp he])
  have h2 : H.filter (fun e => sameKey less k e.1) = H := List.filter_eq_self.2 (fun e he => sameKey_hit sp he)
  have h3 : S.filter (fun e => sameKey less k e.1) = [] := List.filter_eq_nil_iff.2 (fun e he => by simp [sameKey_stop sp he])
  rw [sp.eq, List.filter_append, List.filter_append, h1, h2, h3]; simp

theorem SMap.find_same_split (sp : SSplit less k m G H S) : m.find? (fun e => sameKey less k e.1) = H.head? := by
  rw [← List.head?_filter, SMap.same_split sp]

theorem SMap.assign_split (sp : SSplit less k m G H S) (v : V) :
    m.map (fun e => if sameKey less k e.1 then (e.1, v) else e) = G ++ (H.map (fun e => (e.1, v)) ++ S) := by
  have h1 : G.map (fun e => if sameKey less k e.1 then (e.1, v) else e) = G := by
    conv => rhs; rw [← List.map_id G]
    exact List.map_congr_left (fun e he => by simp [sameKey_go sp he])
  have h2 : H.map (fun e => if sameKey less k e.1 then (e.1, v) else e) = H.map (fun e => (e.1, v)) :=
    List.map_congr_left (fun e he => by simp [sameKey_hit sp he])
  have h3 : S.map (fun e => if sameKey less k e.1 then (e.1, v) else e) = S := by
    conv => rhs; rw [← List.map_id S]
    exact List.map_congr_left (fun e he => by simp [sameKey_stop sp he])
  rw [sp.eq, List.map_append, List.map_append, h1, h2, h3]

end

/-! ## Representation -/

/-- The node at a place: `ids` are the nodes in the list, `D` the removed ones. -/
def NodeAt (sl : SL K V) (ids D : List Nat) : SPlace K → Nat → Prop
  | .live k, p => p ∈ ids ∧ ∃ v, sl.kv p = some (k, v)
  | .dead i, p => D[i]? = some p

/-- The same for pointers that may be nil. -/
def PtrAt (sl : SL K V) (ids D : List Nat) : Option (SPlace K) → Option Nat → Prop
  | none, none => True
  | some d, some p => NodeAt sl ids D d p
  | _, _ => False

/-- Following links from a node leads through removed nodes into the list. -/
def PathAt (sl : SL K V) (ids D : List Nat) : List Nat → Option K → Option Nat → Prop
  | [], s, p => PtrAt sl ids D (s.map .live) p
  | i :: g, s, p => ∃ d nx, p = some d ∧ D[i]? = some d ∧ sl.get (.node d) 0 = some nx ∧ PathAt sl ids D g s nx

/-- `it` is the iterator `c`. -/
def SCurIs (sl : SL K V) (ids D : List Nat) (c : SCur K) (it : SLIter) : Prop :=
  PathAt sl ids D c.gone c.start it.node ∧ PtrAt sl ids D c.stop it.stop

/-- The list stores `m` in the nodes `ids`; the removed entries `rem` are in the nodes `D`. -/
structure SCBase (less : K → K → Bool) (sl : SL K V) (ids D : List Nat) (m rem : List (K × V)) : Prop where
  inv : SLInv less sl ids m
  dead : D.map sl.kv = rem.map some
  nodup : D.Nodup
  apart : ∀ d ∈ D, d ∉ ids

variable {impl : SLImpl K} {sl : SL K V} {ids D : List Nat} {m rem : List (K × V)}

theorem PathAt.transfer {sl' : SL K V} {ids' D' : List Nat} {s s' : Option K} {g' : List Nat}
    (hD : ∀ (i d : Nat), D[i]? = some d → D'[i]? = some d)
    (hget : ∀ d ∈ D, sl'.get (.node d) 0 = sl.get (.node d) 0)
    (htail : ∀ p, PtrAt sl ids D (s.map .live) p → PathAt sl' ids' D' g' s' p) :
    ∀ (g : List Nat) (p : Option Nat), PathAt sl ids D g s p → PathAt sl' ids' D' (g ++ g') s' p := by
  intro g
  induction g with
  | nil => intro p h; exact htail p h
  | cons i g ih =>
    rintro p ⟨d, nx, h1, h2, h3, h4⟩
    exact ⟨d, nx, h1, hD i d h2, by rw [hget d (List.mem_of_getElem? h2)]; exact h3, ih nx h4⟩

/-- How an operation moves what points into the list. -/
structure Carry (sl : SL K V) (ids D : List Nat) (sl' : SL K V) (ids' D' : List Nat) (f : SPlace K → SPlace K) (fc : SCur K → SCur K) : Prop where
  place : ∀ d p, NodeAt sl ids D d p → NodeAt sl' ids' D' (f d) p
  path : ∀ c p, PathAt sl ids D c.gone c.start p → PathAt sl' ids' D' (fc c).gone (fc c).start p
  stop : ∀ c, (fc c).stop = c.stop.map f

variable {sl' : SL K V} {ids' D' : List Nat} {f : SPlace K → SPlace K} {fc : SCur K → SCur K}

theorem Carry.ptr (h : Carry sl ids D sl' ids' D' f fc) : ∀ d p, PtrAt sl ids D d p → PtrAt sl' ids' D' (d.map f) p
  | none, none, _ => trivial
  | some d, some p, hd => h.place d p hd
  | none, some _, hd => hd.elim
  | some _, none, hd => hd.elim

theorem Carry.cur (h : Carry sl ids D sl' ids' D' f fc) (c : SCur K) (it : SLIter) (hc : SCurIs sl ids D c it) :
    SCurIs sl' ids' D' (fc c) it :=
  ⟨h.path c _ hc.1, by rw [h.stop]; exact h.ptr _ _ hc.2⟩

/-- An operation that removes nothing. -/
theorem Carry.keep (hids : ∀ p ∈ ids, p ∈ ids') (hkv : ∀ p ∈ ids, ∀ k v, sl.kv p = some (k, v) → ∃ v', sl'.kv p = some (k, v'))
    (hget : ∀ d ∈ D, sl'.get (.node d) 0 = sl.get (.node d) 0) (hf : ∀ d, f d = d) (hfc : ∀ c, fc c = c) :
    Carry sl ids D sl' ids' D f fc := by
  have hp : ∀ d p, NodeAt sl ids D d p → NodeAt sl' ids' D d p := by
    intro d p h
    cases d with
    | dead i => exact h
    | live k =>
      obtain ⟨h1, v, h2⟩ := h
      exact ⟨hids p h1, hkv p h1 k v h2⟩
  have hq : ∀ d p, PtrAt sl ids D d p → PtrAt sl' ids' D d p := by
    intro d p h
    cases d <;> cases p <;> first | exact h | exact hp _ _ h
  refine ⟨fun d p h => by rw [hf]; exact hp d p h, ?_, fun c => ?_⟩
  · intro c p h
    rw [hfc]
    have := PathAt.transfer (sl := sl) (ids := ids) (sl' := sl') (ids' := ids') (g' := []) (s' := c.start) (fun _ _ h => h) hget (fun p h => hq _ _ h) c.gone p h
    simpa using this
  · rw [hfc]; cases c.stop <;> simp [hf]

theorem Carry.refl (hf : ∀ d, f d = d) (hfc : ∀ c, fc c = c) : Carry sl ids D sl ids D f fc :=
  Carry.keep (fun _ h => h) (fun _ _ _ v h => ⟨v, h⟩) (fun _ _ => rfl) hf hfc

section
variable {key : K} {iG iH iS : List Nat} {G H S : List (K × V)}

/-- Where a node lies relative to a key. -/
theorem Pos.side (p : Pos impl.less sl ids m key iG iH iS G H S) {q : Nat} (hq : q ∈ ids) {k : K} {v : V} (hk : sl.kv q = some (k, v)) :
    (q ∈ iG ∧ sameKey impl.less key k = false) ∨ (q ∈ iH ∧ H = [(k, v)] ∧ sameKey impl.less key k = true) ∨
      (q ∈ iS ∧ sameKey impl.less key k = false) := by
  rw [p.ids_eq, List.mem_append, List.mem_append] at hq
  rcases hq with hq | hq | hq
  · obtain ⟨e, he, hkv⟩ := mem_kv p.kG hq
    rw [hk] at hkv; injection hkv with hkv; subst hkv
    exact .inl ⟨hq, sameKey_go p.sp he⟩
  · obtain ⟨e, he, hkv⟩ := mem_kv p.kH hq
    rw [hk] at hkv; injection hkv with hkv; subst hkv
    refine .inr (.inl ⟨hq, ?_, sameKey_hit p.sp he⟩)
    rcases p.sp.cases with rfl | ⟨e', rfl⟩
    · simp at he
    · simp at he; rw [he]
  · obtain ⟨e, he, hkv⟩ := mem_kv p.kS hq
    rw [hk] at hkv; injection hkv with hkv; subst hkv
    exact .inr (.inr ⟨hq, sameKey_stop p.sp he⟩)

end

theorem SPlace.after_id {less : K → K → Bool} {n : Nat} {op : SMOp K V} (h : ∀ k, op ≠ .remove k) (h2 : op ≠ .clear) (d : SPlace K) :
    d.after less m n op = d := by
  cases d with
  | dead i => rfl
  | live s => cases op <;> first | rfl | exact absurd rfl (h _) | exact absurd rfl h2

theorem SCur.after_id {less : K → K → Bool} {n : Nat} {op : SMOp K V} (h : ∀ k, op ≠ .remove k) (h2 : op ≠ .clear) (c : SCur K) :
    c.after less m n op = c := by
  have e : c.stop.map (SPlace.after less m n op) = c.stop := by
    cases c.stop <;> simp [SPlace.after_id h h2]
  obtain ⟨g, s, t⟩ := c
  simp only [SCur.after, e]
  cases op <;> cases s <;> first | rfl | exact absurd rfl (h _) | exact absurd rfl h2

theorem SCBase.of_kv {less : K → K → Bool} {m' : List (K × V)} (h : SCBase less sl ids D m rem) (hi : SLInv less sl' ids' m')
    (hids : ∀ d ∈ D, d ∉ ids') (hkv : ∀ d ∈ D, sl'.kv d = sl.kv d) : SCBase less sl' ids' D m' rem :=
  ⟨hi, by rw [List.map_congr_left hkv]; exact h.dead, h.nodup, hids⟩

theorem SCBase.dead_lt {less : K → K → Bool} (h : SCBase less sl ids D m rem) {d : Nat} (hd : d ∈ D) : d < sl.nodes.length := by
  obtain ⟨e, _, he⟩ := mem_kv h.dead hd
  obtain ⟨n, hn, _⟩ := SL.kv_some he
  exact (List.getElem?_eq_some_iff.1 hn).1

theorem SCBase.len_rem {less : K → K → Bool} (h : SCBase less sl ids D m rem) : D.length = rem.length := by
  have := congrArg List.length h.dead; simpa using this

/-- After `Clear` the nodes of the list are removed nodes that are still linked. -/
theorem path_cleared {less : K → K → Bool} (h : SCBase less sl ids D m rem) (B : List Nat) : ∀ (A : List Nat), ids = A ++ B →
    PathAt sl.clear [] (D ++ ids) (List.range' (D.length + A.length) B.length) none B.head? := by
  induction B with
  | nil => intro A _; trivial
  | cons q B ih =>
    intro A hids
    obtain ⟨n, hn, _, hnx⟩ := h.inv.next_node (q := q) (A := A) (B := B) hids
    refine ⟨q, B.head?, rfl, ?_, ?_, ?_⟩
    · rw [List.getElem?_append_right (by omega), hids, Nat.add_sub_cancel_left]; simp
    · show sl.get (.node q) 0 = _
      rw [SL.get_node hn]; exact hnx
    · have := ih (A ++ [q]) (by rw [hids]; simp)
      simpa [Nat.add_assoc] using this

/-- Every operation on the map: what it shows, and where iterators and pointers are afterwards. -/
theorem SCBase.exec (hl : impl.Lawful) (h : SCBase impl.less sl ids D m rem) (rnd : Nat) (op : SMOp K V) :
    ∃ sl' ids' D', sl.exec impl rnd op = .ret (sl', (SMap.step impl.less m op).1) ∧
      SCBase impl.less sl' ids' D' (SMap.step impl.less m op).2 (rem ++ SMap.removes impl.less m op) ∧
      Carry sl ids D sl' ids' D' (SPlace.after impl.less m rem.length op) (SCur.after impl.less m rem.length op) := by
  have reads : (SMap.step impl.less m op).2 = m → (∀ k, op ≠ .remove k) → op ≠ .clear → SMap.removes impl.less m op = [] →
      (∃ s' i', sl.exec impl rnd op = .ret (s', (SMap.step impl.less m op).1) ∧ s' = sl ∧ i' = ids) →
      ∃ sl' ids' D', sl.exec impl rnd op = .ret (sl', (SMap.step impl.less m op).1) ∧
      SCBase impl.less sl' ids' D' (SMap.step impl.less m op).2 (rem ++ SMap.removes impl.less m op) ∧
      Carry sl ids D sl' ids' D' (SPlace.after impl.less m rem.length op) (SCur.after impl.less m rem.length op) := by
    rintro e1 e2 e3 e4 ⟨s', i', h1, rfl, rfl⟩
    exact ⟨s', i', D, h1, by rw [e1, e4, List.append_nil]; exact h,
      Carry.refl (SPlace.after_id e2 e3) (SCur.after_id e2 e3)⟩
  -- reading operations return the list unchanged
  have hread : (∀ k v, op ≠ .insert k v) → (∀ k, op ≠ .remove k) → op ≠ .clear → (∀ k v, op ≠ .update k v) →
      ∃ s' i', sl.exec impl rnd op = .ret (s', (SMap.step impl.less m op).1) ∧ s' = sl ∧ i' = ids := by
    intro n1 n2 n3 n4
    obtain ⟨s', i', a1, _⟩ := h.inv.exec hl rnd op
    refine ⟨s', ids, a1, ?_, rfl⟩
    cases op with
    | insert k v => exact absurd rfl (n1 k v)
    | remove k => exact absurd rfl (n2 k)
    | clear => exact absurd rfl n3
    | update k v => exact absurd rfl (n4 k v)
    | find k =>
      simp only [SL.exec] at a1
      cases hx : sl.find impl k with
      | ret o =>
        rw [hx] at a1
        cases o with
        | none => simp at a1; exact a1.1.symm
        | some p =>
          simp only [Outcome.ret_bind] at a1
          cases hy : sl.readPtr p with
          | ret v => rw [hy] at a1; simp at a1; exact a1.1.symm
          | panic => rw [hy] at a1; simp at a1
          | diverge => rw [hy] at a1; simp at a1
      | panic => rw [hx] at a1; simp at a1
      | diverge => rw [hx] at a1; simp at a1
    | has k =>
      simp only [SL.exec] at a1
      cases hx : sl.has impl k with
      | ret o => rw [hx] at a1; simp at a1; exact a1.1.symm
      | panic => rw [hx] at a1; simp at a1
      | diverge => rw [hx] at a1; simp at a1
    | len => simp [SL.exec] at a1; exact a1.1.symm
    | isEmpty => simp [SL.exec] at a1; exact a1.1.symm
    | iterate =>
      simp only [SL.exec] at a1
      cases hx : sl.iterate with
      | ret it =>
        rw [hx] at a1
        simp only [Outcome.ret_bind] at a1
        cases hy : sl.observeIter it with
        | ret l => rw [hy] at a1; simp at a1; exact a1.1.symm
        | panic => rw [hy] at a1; simp at a1
        | diverge => rw [hy] at a1; simp at a1
      | panic => rw [hx] at a1; simp at a1
      | diverge => rw [hx] at a1; simp at a1
    | lowerBound k =>
      simp only [SL.exec] at a1
      cases hx : sl.lowerBoundIter impl k with
      | ret it =>
        rw [hx] at a1
        simp only [Outcome.ret_bind] at a1
        cases hy : sl.observeIter it with
        | ret l => rw [hy] at a1; simp at a1; exact a1.1.symm
        | panic => rw [hy] at a1; simp at a1
        | diverge => rw [hy] at a1; simp at a1
      | panic => rw [hx] at a1; simp at a1
      | diverge => rw [hx] at a1; simp at a1
    | upperBound k =>
      simp only [SL.exec] at a1
      cases hx : sl.upperBoundIter impl k with
      | ret it =>
        rw [hx] at a1
        simp only [Outcome.ret_bind] at a1
        cases hy : sl.observeIter it with
        | ret l => rw [hy] at a1; simp at a1; exact a1.1.symm
        | panic => rw [hy] at a1; simp at a1
        | diverge => rw [hy] at a1; simp at a1
      | panic => rw [hx] at a1; simp at a1
      | diverge => rw [hx] at a1; simp at a1
  cases op with
  | find k => exact reads rfl (by simp) (by simp) rfl (hread (by simp) (by simp) (by simp) (by simp))
  | has k => exact reads rfl (by simp) (by simp) rfl (hread (by simp) (by simp) (by simp) (by simp))
  | len => exact reads rfl (by simp) (by simp) rfl (hread (by simp) (by simp) (by simp) (by simp))
  | isEmpty => exact reads rfl (by simp) (by simp) rfl (hread (by simp) (by simp) (by simp) (by simp))
  | iterate => exact reads rfl (by simp) (by simp) rfl (hread (by simp) (by simp) (by simp) (by simp))
  | lowerBound k => exact reads rfl (by simp) (by simp) rfl (hread (by simp) (by simp) (by simp) (by simp))
  | upperBound k => exact reads rfl (by simp) (by simp) rfl (hread (by simp) (by simp) (by simp) (by simp))
  | insert k v =>
    clear reads hread
    obtain ⟨iG, iH, iS, G, H, S, p⟩ := h.inv.pos hl k
    rcases p.cases with ⟨rfl, rfl⟩ | ⟨q, e, rfl, rfl, hkv⟩
    · obtain ⟨sl', a1, a2, a3, a4⟩ := h.inv.insert_miss hl p rnd v
      have hids : ids = iG ++ iS := by simpa using p.ids_eq
      have hD : ∀ d ∈ D, d ≠ sl.nodes.length := fun d hd => by have := h.dead_lt hd; omega
      refine ⟨sl', iG ++ sl.nodes.length :: iS, D, by simp [SL.exec, a1, SMap.step], ?_, ?_⟩
      · simp only [SMap.removes, List.append_nil, SMap.step]
        refine h.of_kv a2 (fun d hd hc => ?_) (fun d hd => a3 d (hD d hd))
        exact h.apart d hd (by rw [hids]; exact mem_mid hc (hD d hd))
      · refine Carry.keep (fun x hx => by rw [hids] at hx; exact mem_add hx) (fun x hx k' v' hk => ⟨v', ?_⟩)
          (fun d hd => a4 d (h.apart d hd) (hD d hd) 0) (SPlace.after_id (by simp) (by simp)) (SCur.after_id (by simp) (by simp))
        have := SL.lvl_lt (h.inv.lvl_pos x hx)
        rw [a3 x (by omega), hk]
    · obtain ⟨sl', a1, a2, a3, a4, a5⟩ := h.inv.insert_hit hl p rnd v
      have hq : q ∈ ids := by rw [p.ids_eq]; simp
      refine ⟨sl', ids, D, by simp [SL.exec, a1, SMap.step], ?_, ?_⟩
      · simp only [SMap.removes, List.append_nil, SMap.step]
        exact h.of_kv a2 h.apart (fun d hd => a3 d (fun e => h.apart d hd (e ▸ hq)))
      · refine Carry.keep (fun x hx => hx) (fun x hx k' v' hk => ?_) (fun d hd => a5 _ _)
          (SPlace.after_id (by simp) (by simp)) (SCur.after_id (by simp) (by simp))
        by_cases hxq : x = q
        · subst hxq
          rw [hkv] at hk; injection hk with hk; subst hk
          exact ⟨v, a4⟩
        · exact ⟨v', by rw [a3 x hxq, hk]⟩
  | update k v =>
    clear reads hread
    obtain ⟨iG, iH, iS, G, H, S, p⟩ := h.inv.pos hl k
    have hf := h.inv.findNode hl p
    rcases p.cases with ⟨rfl, rfl⟩ | ⟨q, e, rfl, rfl, hkv⟩
    · refine ⟨sl, ids, D, by simp [SL.exec, SL.find, hf, SMap.step, SMap.find_split p.sp], ?_,
        Carry.refl (SPlace.after_id (by simp) (by simp)) (SCur.after_id (by simp) (by simp))⟩
      simpa [SMap.step, SMap.find_split p.sp, SMap.removes] using h
    · obtain ⟨sl', a1, a2, a3, a4, a5, _⟩ := h.inv.setValue (A := iG) (B := iS) (q := q) (mA := G) (mB := S) (e := e)
        (by rw [p.ids_eq]; rfl) (by rw [p.sp.eq]; rfl) p.kG hkv p.kS v
      have hq : q ∈ ids := by rw [p.ids_eq]; simp
      refine ⟨sl', ids, D, by simp [SL.exec, SL.find, hf, a1, SMap.step, SMap.find_split p.sp], ?_, ?_⟩
      · have : SCBase impl.less sl' ids D (G ++ (e.1, v) :: S) rem :=
          h.of_kv a2 h.apart (fun d hd => a3 d (fun e => h.apart d hd (e ▸ hq)))
        simpa [SMap.step, SMap.find_split p.sp, SMap.insert_hit hl.weak p.sp, SMap.removes] using this
      · refine Carry.keep (fun x hx => hx) (fun x hx k' v' hk => ?_) (fun d hd => a5 _ _)
          (SPlace.after_id (by simp) (by simp)) (SCur.after_id (by simp) (by simp))
        by_cases hxq : x = q
        · subst hxq
          rw [hkv] at hk; injection hk with hk; subst hk
          exact ⟨v, a4⟩
        · exact ⟨v', by rw [a3 x hxq, hk]⟩
  | remove k =>
    clear reads hread
    obtain ⟨iG, iH, iS, G, H, S, p⟩ := h.inv.pos hl k
    rcases p.cases with ⟨rfl, rfl⟩ | ⟨q, e, rfl, rfl, hkv⟩
    · obtain ⟨sl', a1, a2, a3, a4⟩ := h.inv.remove_miss hl p
      have hm : m = G ++ S := by simpa using p.sp.eq
      have hno : ∀ s x, NodeAt sl ids D (.live s) x → sameKey impl.less k s = false := by
        rintro s x ⟨hx, v, hv⟩
        rcases p.side hx hv with hh | hh | hh
        · exact hh.2
        · simp at hh
        · exact hh.2
      have hn' : ∀ d x, NodeAt sl ids D d x → NodeAt sl' ids D d x := by
        intro d x hd
        cases d with
        | dead i => exact hd
        | live s => obtain ⟨h1, v, h2⟩ := hd; exact ⟨h1, v, by rw [a3, h2]⟩
      refine ⟨sl', ids, D, by simp [SL.exec, a1, SMap.step, SMap.find_split p.sp], ?_, ?_, ?_, fun _ => rfl⟩
      · simp only [SMap.step, SMap.erase_split p.sp, SMap.removes, SMap.same_split p.sp, List.append_nil, ← hm]
        exact h.of_kv a2 h.apart (fun d _ => a3 d)
      · intro d x hd
        cases d with
        | dead i => exact hd
        | live s => simp only [SPlace.after, hno s x hd]; exact hn' _ _ hd
      · intro c x hc
        have t := PathAt.transfer (sl := sl) (ids := ids) (sl' := sl') (ids' := ids) (D' := D) (g' := []) (s := c.start) (s' := c.start) (fun _ _ h => h)
          (fun d _ => a4 _ _) (fun x hx => by
            cases hs : c.start with
            | none => rw [hs] at hx; cases x <;> exact hx
            | some s => rw [hs] at hx; cases x with
              | none => exact hx.elim
              | some x => exact hn' (.live s) x hx)
        cases hs : c.start with
        | none => have := t c.gone x hc; simpa [SCur.after, hs] using this
        | some s =>
          by_cases hk : sameKey impl.less k s = true
          · -- then no node has this key, and the path must avoid the list: impossible
            exfalso
            have : ∀ g x, PathAt sl ids D g c.start x → False := by
              intro g
              induction g with
              | nil =>
                intro x hx
                rw [hs] at hx
                cases x with
                | none => exact hx.elim
                | some x => rw [hno s x hx] at hk; simp at hk
              | cons i g ih => rintro x ⟨_, nx, _, _, _, h4⟩; exact ih nx h4
            exact this _ _ hc
          · have := t c.gone x hc
            simpa [SCur.after, hs, hk] using this
    · obtain ⟨sl', a1, a2, a3, a4, a5, a6⟩ := h.inv.remove_hit hl p
      have hids : ids = iG ++ q :: iS := by simpa using p.ids_eq
      have hq : q ∈ ids := by rw [hids]; simp
      have hnd := h.inv.linked.nodup
      rw [hids] at hnd
      have hqn : q ∉ iG ++ iS := by
        rw [List.nodup_append] at hnd
        simp only [List.mem_append, not_or]
        exact ⟨fun hc => hnd.2.2 q hc q (by simp) rfl, (List.nodup_cons.1 hnd.2.1).1⟩
      have hD' : ∀ (i d : Nat), D[i]? = some d → (D ++ [q])[i]? = some d := by
        intro i d hd
        rw [List.getElem?_append_left (List.getElem?_eq_some_iff.1 hd).1]; exact hd
      have hlive : ∀ s x, NodeAt sl ids D (.live s) x →
          (x = q ∧ s = e.1 ∧ sameKey impl.less k s = true) ∨ (x ∈ iG ++ iS ∧ sameKey impl.less k s = false) := by
        rintro s x ⟨hx, v, hv⟩
        rcases p.side hx hv with hh | hh | hh
        · exact .inr ⟨by simp [hh.1], hh.2⟩
        · obtain ⟨hh1, hh2, hh3⟩ := hh
          simp at hh1 hh2
          exact .inl ⟨hh1, by rw [hh2], hh3⟩
        · exact .inr ⟨by simp [hh.1], hh.2⟩
      have hplace : ∀ d x, NodeAt sl ids D d x → NodeAt sl' (iG ++ iS) (D ++ [q]) (d.after impl.less m rem.length (.remove k)) x := by
        intro d x hd
        cases d with
        | dead i => exact hD' i x hd
        | live s =>
          rcases hlive s x hd with ⟨rfl, _, hk⟩ | ⟨hx, hk⟩
          · simp only [SPlace.after, hk, if_true, NodeAt]
            rw [← h.len_rem]; simp
          · simp only [SPlace.after, hk, Bool.false_eq_true, if_false]
            obtain ⟨_, v, hv⟩ := hd
            exact ⟨hx, v, by rw [a3, hv]⟩
      refine ⟨sl', iG ++ iS, D ++ [q], by simp [SL.exec, a1, SMap.step, SMap.find_split p.sp], ?_, hplace, ?_, fun _ => rfl⟩
      · simp only [SMap.step, SMap.removes, SMap.same_split p.sp]
        refine ⟨a2, ?_, ?_, ?_⟩
        · rw [List.map_append, List.map_append, List.map_congr_left (fun d _ => a3 d), h.dead]
          simp [a3, hkv]
        · rw [List.nodup_append]
          exact ⟨h.nodup, by simp, fun a ha b hb => by simp at hb; subst hb; rintro rfl; exact h.apart a ha hq⟩
        · intro d hd
          rcases List.mem_append.1 hd with hd | hd
          · intro hc; exact h.apart d hd (by rw [hids]; exact mem_add hc)
          · simp at hd; subst hd; exact hqn
      · intro c x hc
        have hget : ∀ d ∈ D, sl'.get (.node d) 0 = sl.get (.node d) 0 := fun d hd =>
          a6 d (fun hc => h.apart d hd (by rw [hids]; simp [hc])) 0
        cases hs : c.start with
        | none =>
          rw [hs] at hc
          have := PathAt.transfer (sl := sl) (ids := ids) (sl' := sl') (ids' := iG ++ iS) (D' := D ++ [q]) (g' := []) (s := none) (s' := none) hD' hget
            (fun x hx => by cases x <;> exact hx) c.gone x hc
          simpa [SCur.after, hs] using this
        | some s =>
          rw [hs] at hc
          by_cases hk : sameKey impl.less k s = true
          · have := PathAt.transfer (sl := sl) (ids := ids) (sl' := sl') (ids' := iG ++ iS) (D' := D ++ [q]) (g' := [rem.length]) (s := some s)
              (s' := SMap.succ impl.less m s) hD' hget (fun x hx => by
                cases x with
                | none => exact hx.elim
                | some x =>
                  rcases hlive s x hx with ⟨rfl, rfl, _⟩ | ⟨_, hk'⟩
                  · obtain ⟨n, hn, _, hnx⟩ := h.inv.next_node (q := x) (A := iG) (B := iS) hids
                    refine ⟨x, iS.head?, rfl, by rw [← h.len_rem]; simp, ?_, ?_⟩
                    · rw [a4, SL.get_node hn]; exact hnx
                    · have hsp : SSplit impl.less e.1 m G [e] S := by
                        have hh := p.sp.hit e (by simp)
                        refine ⟨p.sp.eq, fun y hy => ?_, fun y hy => ?_, fun y hy => ?_, by simp⟩
                        · exact hl.weak.lt_of_lt_of_not (p.sp.go y hy) hh.1
                        · simp at hy; subst hy; exact ⟨hl.weak.irrefl _, hl.weak.irrefl _⟩
                        · exact hl.weak.lt_of_not_of_lt hh.2 (p.sp.stop y hy)
                      rw [SMap.succ_split hl.weak hsp]
                      have kS := p.kS
                      cases iS with
                      | nil => cases S with
                        | nil => trivial
                        | cons => simp at kS
                      | cons y iS => cases S with
                        | nil => simp at kS
                        | cons z S =>
                          simp only [List.map_cons, List.cons.injEq] at kS
                          exact ⟨by simp, z.2, by rw [a3, kS.1]⟩
                  · rw [hk'] at hk; simp at hk) c.gone x hc
            simpa [SCur.after, hs, hk] using this
          · have := PathAt.transfer (sl := sl) (ids := ids) (sl' := sl') (ids' := iG ++ iS) (D' := D ++ [q]) (g' := []) (s := some s) (s' := some s) hD' hget
              (fun x hx => by
                cases x with
                | none => exact hx.elim
                | some x =>
                  have := hplace (.live s) x hx
                  simp only [SPlace.after, hk, Bool.false_eq_true, if_false] at this
                  exact this) c.gone x hc
            simpa [SCur.after, hs, hk] using this
  | clear =>
    clear reads hread
    have hD' : ∀ (i d : Nat), D[i]? = some d → (D ++ ids)[i]? = some d := by
      intro i d hd
      rw [List.getElem?_append_left (List.getElem?_eq_some_iff.1 hd).1]; exact hd
    have hlive : ∀ s x, NodeAt sl ids D (.live s) x →
        ∃ A B, ids = A ++ x :: B ∧ A.length = SMap.rank impl.less m s := by
      rintro s x ⟨hx, v, hv⟩
      obtain ⟨iG, iH, iS, G, H, S, p⟩ := h.inv.pos hl s
      rcases p.side hx hv with hh | hh | hh
      · have := hh.2; simp [sameKey, hl.weak.irrefl] at this
      · obtain ⟨hh1, hh2, _⟩ := hh
        have hlen := p.len_H
        rw [hh2] at hlen
        match iH, hlen, hh1, p with
        | [y], _, hh1, p =>
          simp at hh1; subst hh1
          refine ⟨iG, iS, p.ids_eq, ?_⟩
          rw [SMap.rank_split hl.weak p.sp]
          have := congrArg List.length p.kG; simpa using this
      · have := hh.2; simp [sameKey, hl.weak.irrefl] at this
    refine ⟨sl.clear, [], D ++ ids, rfl, ?_, ?_, ?_, fun _ => rfl⟩
    · simp only [SMap.step, SMap.removes]
      refine ⟨h.inv.clear, ?_, ?_, by simp⟩
      · rw [List.map_append, List.map_append]
        have e : sl.clear.kv = sl.kv := rfl
        rw [e, h.dead, h.inv.kvs]
      · rw [List.nodup_append]
        exact ⟨h.nodup, h.inv.linked.nodup, fun a ha b hb hab => h.apart a ha (hab ▸ hb)⟩
    · intro d x hd
      cases d with
      | dead i => exact hD' i x hd
      | live s =>
        obtain ⟨A, B, hids, hA⟩ := hlive s x hd
        simp only [SPlace.after, NodeAt]
        rw [← h.len_rem, ← hA, List.getElem?_append_right (by omega), hids, Nat.add_sub_cancel_left]; simp
    · intro c x hc
      cases hs : c.start with
      | none =>
        rw [hs] at hc
        have := PathAt.transfer (sl := sl) (ids := ids) (sl' := sl.clear) (ids' := []) (D' := D ++ ids) (g' := []) (s := none) (s' := none) hD' (fun _ _ => rfl)
          (fun x hx => by cases x <;> exact hx) c.gone x hc
        simpa [SCur.after, hs] using this
      | some s =>
        rw [hs] at hc
        have := PathAt.transfer (sl := sl) (ids := ids) (sl' := sl.clear) (ids' := []) (D' := D ++ ids)
          (g' := List.range' (rem.length + SMap.rank impl.less m s) (m.length - SMap.rank impl.less m s)) (s := some s)
          (s' := none) hD' (fun _ _ => rfl) (fun x hx => by
            cases x with
            | none => exact hx.elim
            | some x =>
              obtain ⟨A, B, hids, hA⟩ := hlive s x hx
              have hp := path_cleared h (x :: B) A hids
              have hml : m.length - A.length = (x :: B).length := by
                have := h.inv.len_m
                rw [hids] at this; simp at this; simp; omega
              rw [← h.len_rem, ← hA, hml]
              exact hp) c.gone x hc
        simpa [SCur.after, hs] using this

/-! ## Iterators and pointers -/

theorem PathAt.place {c : SCur K} {p : Option Nat} (h : PathAt sl ids D c.gone c.start p) : PtrAt sl ids D c.place p := by
  unfold SCur.place
  cases hg : c.gone with
  | nil => rw [hg] at h; exact h
  | cons i g =>
    rw [hg] at h
    obtain ⟨d, nx, rfl, h2, _⟩ := h
    exact h2

/-- The position of a key that is in the list. -/
theorem SCBase.live (hl : impl.Lawful) (h : SCBase impl.less sl ids D m rem) {k : K} {p : Nat} (hp : NodeAt sl ids D (.live k) p) :
    ∃ iG iS G S v, Pos impl.less sl ids m k iG [p] iS G [(k, v)] S ∧ sl.kv p = some (k, v) := by
  obtain ⟨hx, v, hv⟩ := hp
  obtain ⟨iG, iH, iS, G, H, S, pos⟩ := h.inv.pos hl k
  rcases pos.side hx hv with hh | hh | hh
  · have := hh.2; simp [sameKey, hl.weak.irrefl] at this
  · obtain ⟨hh1, hh2, _⟩ := hh
    have hlen := pos.len_H
    subst hh2
    match iH, hlen, hh1, pos with
    | [y], _, hh1, pos =>
      simp at hh1; subst hh1
      exact ⟨iG, iS, G, S, v, pos, hv⟩
  · have := hh.2; simp [sameKey, hl.weak.irrefl] at this

theorem SCBase.entry (hl : impl.Lawful) {w : SCSpec K V} (h : SCBase impl.less sl ids D w.map w.removed) {d : SPlace K} {p : Nat}
    (hp : NodeAt sl ids D d p) : ∃ e, w.entry impl.less d = some e ∧ sl.kv p = some e := by
  cases d with
  | live k =>
    obtain ⟨iG, iS, G, S, v, pos, hv⟩ := h.live hl hp
    exact ⟨(k, v), by simp [SCSpec.entry, SMap.find_same_split pos.sp], hv⟩
  | dead i =>
    have h1 : D[i]? = some p := hp
    have : (D.map sl.kv)[i]? = some (sl.kv p) := by rw [List.getElem?_map, h1]; rfl
    rw [h.dead, List.getElem?_map] at this
    cases hx : w.removed[i]? with
    | none => rw [hx] at this; simp at this
    | some e => rw [hx] at this; simp at this; exact ⟨e, by simp [SCSpec.entry, hx], this.symm⟩

theorem SCBase.same (hl : impl.Lawful) (h : SCBase impl.less sl ids D m rem) {a b : Option (SPlace K)} {p q : Option Nat}
    (ha : PtrAt sl ids D a p) (hb : PtrAt sl ids D b q) : samePlace impl.less a b = decide (p = q) := by
  cases a with
  | none =>
    cases p with
    | some p => exact ha.elim
    | none =>
      cases b with
      | none => cases q with
        | none => rfl
        | some q => exact hb.elim
      | some b => cases q with
        | none => exact hb.elim
        | some q => simp [samePlace]
  | some a =>
    cases p with
    | none => exact ha.elim
    | some p =>
      cases b with
      | none => cases q with
        | none => cases a <;> simp [samePlace]
        | some q => exact hb.elim
      | some b => cases q with
        | none => exact hb.elim
        | some q =>
          cases a with
          | live k =>
            cases b with
            | live k' =>
              obtain ⟨iG, iS, G, S, v, pos, hv⟩ := h.live hl ha
              obtain ⟨hq, v', hv'⟩ := hb
              simp only [samePlace, Option.some.injEq]
              by_cases hpq : p = q
              · subst hpq
                rw [hv] at hv'; injection hv' with hv'; injection hv' with e1 e2; subst e1
                simp [sameKey, hl.weak.irrefl]
              · simp only [hpq, decide_false]
                rcases pos.side hq hv' with hh | hh | hh
                · exact hh.2
                · exact absurd (by simpa using hh.1 : q = p) (fun e => hpq e.symm)
                · exact hh.2
            | dead j =>
              have hpq : p ≠ q := by rintro rfl; exact h.apart p (List.mem_of_getElem? hb) ha.1
              simp [samePlace, hpq]
          | dead i =>
            cases b with
            | live k' =>
              have hpq : p ≠ q := by rintro rfl; exact h.apart p (List.mem_of_getElem? ha) hb.1
              simp [samePlace, hpq]
            | dead j =>
              have ha : D[i]? = some p := ha
              have hb : D[j]? = some q := hb
              simp only [samePlace, Option.some.injEq]
              by_cases hij : i = j
              · subst hij; rw [ha] at hb; injection hb with hb; simp [hb]
              · have hpq : p ≠ q := by
                  rintro rfl
                  exact hij ((List.getElem?_inj (List.getElem?_eq_some_iff.1 ha).1 h.nodup).1 (ha.trans hb.symm))
                simp [hij, hpq]

/-- Writing through a pointer. -/
theorem SCBase.assign (hl : impl.Lawful) {w : SCSpec K V} (h : SCBase impl.less sl ids D w.map w.removed) {d : SPlace K} {p : Nat}
    (hp : NodeAt sl ids D d p) (v : V) :
    ∃ sl', sl.setValue p v = .ret sl' ∧ SCBase impl.less sl' ids D (w.assign impl.less v d).map (w.assign impl.less v d).removed ∧
      Carry sl ids D sl' ids D id id := by
  cases d with
  | live k =>
    obtain ⟨iG, iS, G, S, v0, pos, hv⟩ := h.live hl hp
    obtain ⟨sl', a1, a2, a3, a4, a5, _⟩ := h.inv.setValue (A := iG) (B := iS) (q := p) (mA := G) (mB := S) (e := (k, v0))
        (by rw [pos.ids_eq]; rfl) (by rw [pos.sp.eq]; rfl) pos.kG hv pos.kS v
    refine ⟨sl', a1, ?_, ?_⟩
    · simp only [SCSpec.assign, SMap.assign_split pos.sp]
      exact h.of_kv a2 h.apart (fun d hd => a3 d (fun e => h.apart d hd (e ▸ hp.1)))
    · refine Carry.keep (fun x hx => hx) (fun x hx k' v' hk => ?_) (fun d hd => a5 _ _) (fun _ => rfl) (fun _ => rfl)
      by_cases hxq : x = p
      · subst hxq
        rw [hv] at hk; injection hk with hk; injection hk with e1 e2; subst e1
        exact ⟨v, a4⟩
      · exact ⟨v', by rw [a3 x hxq, hk]⟩
  | dead i =>
    obtain ⟨e, he, hkv⟩ := h.entry hl hp
    have hp : D[i]? = some p := hp
    have he : w.removed[i]? = some e := he
    obtain ⟨sl', a1, a2, a3, a4, a5, a6, a7, a8, a9, a10⟩ := SL.setValue_spec hkv v
    have hni : ∀ q ∈ ids, q ≠ p := fun q hq e => h.apart p (List.mem_of_getElem? hp) (e ▸ hq)
    refine ⟨sl', a1, ⟨?_, ?_, h.nodup, h.apart⟩, ?_⟩
    · simp only [SCSpec.assign]
      have hi := h.inv
      refine ⟨hi.linked.congr a2 (fun q _ => a3 q), fun q hq => by rw [a3]; exact hi.lvl_pos q hq,
        fun q hq => by rw [a3, a6]; exact hi.lvl_le q hq, by rw [a6]; exact hi.level_pos, by rw [a6]; exact hi.level_le,
        by rw [a8]; exact hi.head_len, by rw [a9]; exact hi.cache_len, by rw [a10]; exact hi.count, by rw [a7]; exact hi.len_eq, ?_, hi.sorted⟩
      rw [List.map_congr_left (fun q hq => a5 q (hni q hq))]; exact hi.kvs
    · simp only [SCSpec.assign]
      refine List.ext_getElem? (fun j => ?_)
      rw [List.getElem?_map, List.getElem?_map, List.getElem?_modify]
      have hj : (D.map sl.kv)[j]? = (w.removed.map some)[j]? := by rw [h.dead]
      rw [List.getElem?_map, List.getElem?_map] at hj
      by_cases hij : i = j
      · subst hij
        rw [hp, he]; simp [a4]
      · simp only [if_neg hij, id_map']
        cases hd : D[j]? with
        | none => rw [hd] at hj; simpa using hj
        | some x =>
          have hx : x ≠ p := by
            rintro rfl
            exact hij ((List.getElem?_inj (List.getElem?_eq_some_iff.1 hp).1 h.nodup).1 (hp.trans hd.symm))
          rw [hd] at hj
          simp only [Option.map_some] at hj ⊢
          rw [a5 x hx, hj]
    · refine Carry.keep (fun x hx => hx) (fun x hx k' v' hk => ⟨v', by rw [a5 x (hni x hx), hk]⟩) (fun d hd => a2 _ _) (fun _ => rfl) (fun _ => rfl)

/-- The model and the specification agree. -/
structure SCInv (impl : SLImpl K) (w : SCWorld K V) (s : SCSpec K V) (ids D : List Nat) : Prop where
  base : SCBase impl.less w.sl ids D s.map s.removed
  curs : ∀ c, SCurIs w.sl ids D (s.curs c) (w.curs c)
  ptrs : ∀ p, PtrAt w.sl ids D (s.ptrs p) (w.ptrs p)

theorem SCInv.init (impl : SLImpl K) : SCInv impl (SCWorld.init : SCWorld K V) SCSpec.init [] [] :=
  ⟨⟨SLInv.new impl.less, rfl, List.nodup_nil, by simp⟩, fun _ => ⟨trivial, trivial⟩, fun _ => trivial⟩

variable {w : SCWorld K V} {s : SCSpec K V}

theorem SCInv.put (h : SCInv impl w s ids D) (c : Nat) {d : SCur K} {it : SLIter} (hd : SCurIs w.sl ids D d it) :
    SCInv impl (w.put c it) (s.put c d) ids D := by
  refine ⟨h.base, fun x => ?_, h.ptrs⟩
  simp only [SCWorld.put, SCSpec.put]
  by_cases hx : x = c
  · simp only [hx, if_true]; exact hd
  · simp only [hx, if_false]; exact h.curs x

theorem SCInv.point (h : SCInv impl w s ids D) (p : Nat) {d : Option (SPlace K)} {q : Option Nat} (hd : PtrAt w.sl ids D d q) :
    SCInv impl (w.point p q) (s.point p d) ids D := by
  refine ⟨h.base, h.curs, fun x => ?_⟩
  simp only [SCWorld.point, SCSpec.point]
  by_cases hx : x = p
  · simp only [hx, if_true]; exact hd
  · simp only [hx, if_false]; exact h.ptrs x

/-- The first node of a part of the list. -/
theorem SCBase.head (_ : SCBase impl.less sl ids D m rem) {B : List Nat} {mB : List (K × V)} (hB : ∀ q ∈ B, q ∈ ids)
    (hk : B.map sl.kv = mB.map some) : PtrAt sl ids D ((mB.head?.map (·.1)).map .live) B.head? := by
  cases B with
  | nil => cases mB with
    | nil => trivial
    | cons => simp at hk
  | cons q B => cases mB with
    | nil => simp at hk
    | cons e mB =>
      simp only [List.map_cons, List.cons.injEq] at hk
      exact ⟨hB q (by simp), e.2, hk.1⟩

/-- The iterator has an entry, or both the specification and the model have none. -/
theorem SCInv.deref (hl : impl.Lawful) (h : SCInv impl w s ids D) {d : Option (SPlace K)} {p : Option Nat} (hd : PtrAt w.sl ids D d p) :
    (d = none ∧ p = none) ∨
      ∃ d' q e n, d = some d' ∧ p = some q ∧ s.entry impl.less d' = some e ∧ w.sl.nodes[q]? = some n ∧ n.key = e.1 ∧ n.value = e.2 := by
  cases d with
  | none => cases p with
    | none => exact .inl ⟨rfl, rfl⟩
    | some _ => exact hd.elim
  | some d => cases p with
    | none => exact hd.elim
    | some q =>
      obtain ⟨e, he, hkv⟩ := h.base.entry hl (w := s) hd
      obtain ⟨n, hn, hk, hv⟩ := SL.kv_some hkv
      exact .inr ⟨d, q, e, n, rfl, rfl, he, hn, hk, hv⟩

/-- `e.next[0]` for the node an iterator is on. -/
theorem SCInv.next (hl : impl.Lawful) (h : SCInv impl w s ids D) {c : SCur K} {p : Option Nat} (hc : PathAt w.sl ids D c.gone c.start p) :
    (c.place = none ∧ c.next impl.less s.map = none ∧ p = none) ∨
      ∃ q n nx d, p = some q ∧ w.sl.nodes[q]? = some n ∧ n.next[0]? = some nx ∧ c.next impl.less s.map = some d ∧
        PathAt w.sl ids D d.gone d.start nx ∧ d.stop = c.stop := by
  cases hg : c.gone with
  | nil =>
    rw [hg] at hc
    cases hs : c.start with
    | none =>
      rw [hs] at hc
      cases p with
      | none => exact .inl ⟨by simp [SCur.place, hg, hs], by simp [SCur.next, hg, hs], rfl⟩
      | some _ => exact hc.elim
    | some k =>
      rw [hs] at hc
      cases p with
      | none => exact hc.elim
      | some q =>
        obtain ⟨iG, iS, G, S, v, pos, hv⟩ := h.base.live hl (k := k) (p := q) hc
        obtain ⟨n, hn, _, hnx⟩ := h.base.inv.next_node (q := q) (A := iG) (B := iS) pos.ids_eq
        refine .inr ⟨q, n, iS.head?, { c with start := SMap.succ impl.less s.map k }, rfl, hn, hnx, by simp [SCur.next, hg, hs], ?_, rfl⟩
        simp only [hg]
        rw [SMap.succ_split hl.weak pos.sp]
        exact h.base.head (fun x hx => by rw [pos.ids_eq]; simp [hx]) pos.kS
  | cons i g =>
    rw [hg] at hc
    obtain ⟨d, nx, rfl, h2, h3, h4⟩ := hc
    obtain ⟨e, _, he⟩ := mem_kv h.base.dead (List.mem_of_getElem? h2)
    obtain ⟨n, hn, _⟩ := SL.kv_some he
    rw [SL.get_node hn] at h3
    exact .inr ⟨d, n, nx, { c with gone := g }, rfl, hn, h3, by simp [SCur.next, hg], h4, rfl⟩

/-- One step. -/
theorem SCInv.step (hl : impl.Lawful) (h : SCInv impl w s ids D) (op : SCOp K V) :
    (w.step impl op).1 = (s.step impl.less op).1 ∧
    ∃ (ids' D' : List Nat) (fc : SCur K → SCur K), SCInv impl (w.step impl op).2 (s.step impl.less op).2 ids' D' ∧
      (∀ c p, PathAt w.sl ids D c.gone c.start p → PathAt (w.step impl op).2.sl ids' D' (fc c).gone (fc c).start p) ∧
      (∀ c, fc c = match op with | .map _ op => c.after impl.less s.map s.removed.length op | _ => c) := by
  have stay : ∀ {o o' w' s'}, w.step impl op = (o, w') → s.step impl.less op = (o', s') → o = o' →
      (∀ r q, op ≠ .map r q) → w'.sl = w.sl → SCInv impl w' s' ids D →
      (w.step impl op).1 = (s.step impl.less op).1 ∧
      ∃ (ids' D' : List Nat) (fc : SCur K → SCur K), SCInv impl (w.step impl op).2 (s.step impl.less op).2 ids' D' ∧
      (∀ c p, PathAt w.sl ids D c.gone c.start p → PathAt (w.step impl op).2.sl ids' D' (fc c).gone (fc c).start p) ∧
      (∀ c, fc c = match op with | .map _ op => c.after impl.less s.map s.removed.length op | _ => c) := by
    intro o o' w' s' e1 e2 e3 hm hsl hi
    rw [e1, e2]
    refine ⟨e3, ids, D, id, hi, fun c p hc => by rw [hsl]; exact hc, fun c => ?_⟩
    cases op <;> first | rfl | exact absurd rfl (hm _ _)
  cases op with
  | map rnd op =>
    obtain ⟨sl', ids', D', a1, a2, a3⟩ := h.base.exec hl rnd op
    refine ⟨by simp [SCWorld.step, SCWorld.seen, a1, SCSpec.step], ids', D', _, ?_, ?_, fun c => rfl⟩
    · simp only [SCWorld.step, SCWorld.seen, a1, SCSpec.step]
      exact ⟨a2, fun c => a3.cur _ _ (h.curs c), fun p => a3.ptr _ _ (h.ptrs p)⟩
    · intro c p hc
      simp only [SCWorld.step, SCWorld.seen, a1]
      exact a3.path c p hc
  | iterate c =>
    refine stay (w' := w.put c { node := ids.head?, stop := none }) (s' := s.put c { start := s.map.head?.map (·.1) })
      (by simp only [SCWorld.step, SCWorld.seen, h.base.inv.iterate]) rfl rfl (by simp) rfl (h.put c ⟨?_, trivial⟩)
    exact h.base.head (fun _ h => h) h.base.inv.kvs
  | lowerBound c k =>
    obtain ⟨iG, iH, iS, G, H, S, pos⟩ := h.base.inv.pos hl k
    refine stay (w' := w.put c { node := (iH ++ iS).head?, stop := none }) (s' := s.put c { start := SMap.first impl.less s.map k })
      (by simp only [SCWorld.step, SCWorld.seen, SL.lowerBoundIter, h.base.inv.lowerBound hl pos, Outcome.ret_bind]; rfl)
      rfl rfl (by simp) rfl (h.put c ⟨?_, trivial⟩)
    rw [SMap.first_split hl.weak pos.sp]
    exact h.base.head (fun x hx => by rw [pos.ids_eq]; exact List.mem_append_right _ hx) pos.kHS
  | upperBound c k =>
    obtain ⟨iG, iH, iS, G, H, S, pos⟩ := h.base.inv.pos hl k
    refine stay (w' := w.put c { node := iS.head?, stop := none }) (s' := s.put c { start := SMap.succ impl.less s.map k })
      (by simp only [SCWorld.step, SCWorld.seen, SL.upperBoundIter, h.base.inv.upperBound hl pos, Outcome.ret_bind]; rfl)
      rfl rfl (by simp) rfl (h.put c ⟨?_, trivial⟩)
    rw [SMap.succ_split hl.weak pos.sp]
    exact h.base.head (fun x hx => by rw [pos.ids_eq]; simp [hx]) pos.kS
  | findRange c a b =>
    obtain ⟨iG, iH, iS, G, H, S, pos⟩ := h.base.inv.pos hl a
    obtain ⟨iG', iH', iS', G', H', S', pos'⟩ := h.base.inv.pos hl b
    refine stay (w' := w.put c { node := (iH ++ iS).head?, stop := iS'.head? })
      (s' := s.put c { start := SMap.first impl.less s.map a, stop := (SMap.succ impl.less s.map b).map .live })
      (by simp only [SCWorld.step, SCWorld.seen, SL.findRange, h.base.inv.lowerBound hl pos, h.base.inv.upperBound hl pos',
        Outcome.ret_bind]; rfl)
      rfl rfl (by simp) rfl (h.put c ⟨?_, ?_⟩)
    · rw [SMap.first_split hl.weak pos.sp]
      exact h.base.head (fun x hx => by rw [pos.ids_eq]; exact List.mem_append_right _ hx) pos.kHS
    · simp only
      rw [SMap.succ_split hl.weak pos'.sp]
      exact h.base.head (fun x hx => by rw [pos'.ids_eq]; simp [hx]) pos'.kS
  | isNotEnd c =>
    have := h.base.same hl (h.curs c).1.place (h.curs c).2
    refine stay (w' := w) (s' := s) rfl rfl ?_ (by simp) rfl h
    rw [this, SLIter.isNotEnd]
    by_cases e : (w.curs c).node = (w.curs c).stop <;> simp [e]
  | key c =>
    rcases h.deref hl (h.curs c).1.place with ⟨e1, e2⟩ | ⟨d, q, e, n, e1, e2, e3, e4, e5, e6⟩
    · refine stay (o := .of .panicked) (w' := w) (s' := s) ?_ ?_ rfl (by simp) rfl h
      · simp [SCWorld.step, SCWorld.seen, SLIter.key, SLIter.deref, e2]
      · simp [SCSpec.step, e1]
    · refine stay (o := .key e.1) (w' := w) (s' := s) ?_ ?_ rfl (by simp) rfl h
      · simp [SCWorld.step, SCWorld.seen, SLIter.key, SLIter.deref, e2, SL.deref, idx_of_get e4, e5]
      · simp [SCSpec.step, e1, e3]
  | value c =>
    rcases h.deref hl (h.curs c).1.place with ⟨e1, e2⟩ | ⟨d, q, e, n, e1, e2, e3, e4, e5, e6⟩
    · refine stay (o := .of .panicked) (w' := w) (s' := s) ?_ ?_ rfl (by simp) rfl h
      · simp [SCWorld.step, SCWorld.seen, SLIter.value, SLIter.deref, e2]
      · simp [SCSpec.step, e1]
    · refine stay (o := .of (.val (some e.2))) (w' := w) (s' := s) ?_ ?_ rfl (by simp) rfl h
      · simp [SCWorld.step, SCWorld.seen, SLIter.value, SLIter.deref, e2, SL.deref, idx_of_get e4, e6]
      · simp [SCSpec.step, e1, e3]
  | next c =>
    rcases h.next hl (h.curs c).1 with ⟨_, e1, e2⟩ | ⟨q, n, nx, d, e1, e2, e3, e4, e5, e6⟩
    · refine stay (o := .of .panicked) (w' := w) (s' := s) ?_ ?_ rfl (by simp) rfl h
      · simp [SCWorld.step, SCWorld.seen, SLIter.moveToNext, SLIter.deref, e2]
      · simp [SCSpec.step, e1]
    · refine stay (o := .of .unit) (w' := w.put c { w.curs c with node := nx }) (s' := s.put c d) ?_ ?_ rfl (by simp) rfl
        (h.put c ⟨e5, by rw [e6]; exact (h.curs c).2⟩)
      · simp [SCWorld.step, SCWorld.seen, SLIter.moveToNext, SLIter.deref, e1, SL.deref, idx_of_get e2, idx_of_get e3]
      · simp [SCSpec.step, e4]
  | pointer p c =>
    rcases h.deref hl (h.curs c).1.place with ⟨e1, e2⟩ | ⟨d, q, e, n, e1, e2, e3, e4, e5, e6⟩
    · refine stay (o := .of .panicked) (w' := w) (s' := s) ?_ ?_ rfl (by simp) rfl h
      · simp [SCWorld.step, SCWorld.seen, SLIter.deref, e2]
      · simp [SCSpec.step, e1]
    · refine stay (o := .of .unit) (w' := w.point p (w.curs c).node) (s' := s.point p (some d)) ?_ ?_ rfl (by simp) rfl
        (h.point p (by rw [← e1]; exact (h.curs c).1.place))
      · simp [SCWorld.step, SCWorld.seen, SLIter.deref, e2, SL.deref, idx_of_get e4]
      · simp [SCSpec.step, e1]
  | find p k =>
    obtain ⟨iG, iH, iS, G, H, S, pos⟩ := h.base.inv.pos hl k
    have hf := h.base.inv.findNode hl pos
    rcases pos.cases with ⟨rfl, rfl⟩ | ⟨q, e, rfl, rfl, hkv⟩
    · refine stay (o := .of (.flag false)) (w' := w.point p none) (s' := s.point p none) ?_ ?_ rfl (by simp) rfl (h.point p trivial)
      · simp [SCWorld.step, SCWorld.seen, SL.find, hf]
      · simp [SCSpec.step, SMap.find_split pos.sp]
    · refine stay (o := .of (.flag true)) (w' := w.point p (some q)) (s' := s.point p (some (.live e.1))) ?_ ?_ rfl (by simp) rfl
        (h.point p ⟨by rw [pos.ids_eq]; simp, e.2, hkv⟩)
      · simp [SCWorld.step, SCWorld.seen, SL.find, hf]
      · simp [SCSpec.step, SMap.find_split pos.sp, SMap.first_split hl.weak pos.sp]
  | read p =>
    rcases h.deref hl (h.ptrs p) with ⟨e1, e2⟩ | ⟨d, q, e, n, e1, e2, e3, e4, e5, e6⟩
    · refine stay (o := .of .panicked) (w' := w) (s' := s) ?_ ?_ rfl (by simp) rfl h
      · simp [SCWorld.step, SCWorld.seen, derefPtr, e2]
      · simp [SCSpec.step, e1]
    · refine stay (o := .of (.val (some e.2))) (w' := w) (s' := s) ?_ ?_ rfl (by simp) rfl h
      · simp [SCWorld.step, SCWorld.seen, derefPtr, e2, SL.readPtr, SL.deref, idx_of_get e4, e6]
      · simp [SCSpec.step, e1, e3]
  | write p v =>
    rcases h.deref hl (h.ptrs p) with ⟨e1, e2⟩ | ⟨d, q, e, n, e1, e2, e3, e4, e5, e6⟩
    · refine stay (o := .of .panicked) (w' := w) (s' := s) ?_ ?_ rfl (by simp) rfl h
      · simp [SCWorld.step, SCWorld.seen, derefPtr, e2]
      · simp [SCSpec.step, e1]
    · have hd := h.ptrs p
      rw [e1, e2] at hd
      obtain ⟨sl', a1, a2, a3⟩ := h.base.assign hl hd v
      have hcs : (s.assign impl.less v d).curs = s.curs := by cases d <;> rfl
      have hps : (s.assign impl.less v d).ptrs = s.ptrs := by cases d <;> rfl
      refine ⟨by simp [SCWorld.step, SCWorld.seen, derefPtr, e2, a1, SCSpec.step, e1], ids, D, id, ?_, ?_, fun c => rfl⟩
      · simp only [SCWorld.step, SCWorld.seen, derefPtr, e2, a1, SCSpec.step, e1]
        refine ⟨a2, fun c => by rw [hcs]; exact a3.cur _ _ (h.curs c), fun x => ?_⟩
        rw [hps]
        have := a3.ptr _ _ (h.ptrs x)
        simpa using this
      · intro c x hc
        simp only [SCWorld.step, SCWorld.seen, derefPtr, e2, a1]
        exact a3.path c x hc

/-- Every history. -/
theorem SCInv.run (hl : impl.Lawful) (ops : List (SCOp K V)) : ∀ {w : SCWorld K V} {s : SCSpec K V} {ids D : List Nat}, SCInv impl w s ids D →
    (w.run impl ops).1 = (s.run impl.less ops).1 ∧ ∃ ids' D', SCInv impl (w.run impl ops).2 (s.run impl.less ops).2 ids' D' := by
  induction ops with
  | nil => intro w s ids D h; exact ⟨rfl, ids, D, h⟩
  | cons op ops ih =>
    intro w s ids D h
    obtain ⟨a1, ids', D', _, a2, _⟩ := h.step hl op
    obtain ⟨b1, ids'', D'', b2⟩ := ih a2
    exact ⟨by simp only [SCWorld.run, SCSpec.run, a1, b1], ids'', D'', b2⟩

theorem SCInv.after (hl : impl.Lawful) (ops : List (SCOp K V)) :
    ∃ ids D, SCInv impl (SCWorld.init.run impl ops).2 (SCSpec.init.run impl.less ops).2 ids D :=
  (SCInv.run hl ops (SCInv.init impl)).2

/-- What a loop from an iterator without an end collects. -/
theorem SCInv.collect (hl : impl.Lawful) (h : SCInv impl w s ids D) (g : List Nat) : ∀ {st : Option K} {p : Option Nat},
    PathAt w.sl ids D g st p → ∀ fuel, (s.rest impl.less { gone := g, start := st }).length < fuel →
    SLIter.collect w.sl fuel { node := p, stop := none } = .ret (s.rest impl.less { gone := g, start := st }) := by
  induction g with
  | nil =>
    intro st p hc fuel hf
    cases st with
    | none =>
      cases p with
      | none => cases fuel with
        | zero => simp at hf
        | succ f => simp [SLIter.collect, SLIter.isNotEnd, SCSpec.rest]
      | some _ => exact hc.elim
    | some k =>
      cases p with
      | none => exact hc.elim
      | some q =>
        obtain ⟨iG, iS, G, S, v, pos, hv⟩ := h.base.live hl (k := k) (p := q) hc
        have hr : s.rest impl.less { gone := [], start := some k } = (k, v) :: S := by
          simp only [SCSpec.rest, List.filterMap_nil, List.nil_append]
          rw [SMap.lower_split hl.weak pos.sp]; rfl
        rw [hr] at hf ⊢
        have := h.base.inv.collect (C := []) (q :: iS) iG ((k, v) :: S) fuel (by simp [pos.ids_eq]) (by simp [hv, pos.kS]) (by
          have e : S.length = iS.length := by have := congrArg List.length pos.kS; simpa using this.symm
          simp at hf ⊢; omega)
        simpa using this
  | cons i g ih =>
    intro st p hc fuel hf
    obtain ⟨d, nx, rfl, h2, h3, h4⟩ := hc
    have hd : (D.map w.sl.kv)[i]? = some (w.sl.kv d) := by rw [List.getElem?_map, h2]; rfl
    rw [h.base.dead, List.getElem?_map] at hd
    cases he : s.removed[i]? with
    | none => rw [he] at hd; simp at hd
    | some e =>
      rw [he] at hd; simp at hd
      obtain ⟨n, hn, hk, hv⟩ := SL.kv_some hd.symm
      rw [SL.get_node hn] at h3
      have hr : s.rest impl.less { gone := i :: g, start := st } = e :: s.rest impl.less { gone := g, start := st } := by
        simp [SCSpec.rest, he]
      rw [hr] at hf ⊢
      cases fuel with
      | zero => simp at hf
      | succ f =>
        have := ih h4 f (by simpa using hf)
        simp [SLIter.collect, SLIter.isNotEnd, SLIter.key, SLIter.value, SLIter.moveToNext, SLIter.deref, SL.deref, idx_of_get hn,
          idx_of_get h3, hk, hv, this]

/-- A pointer that is not nil stays so until it is assigned. -/
theorem SCSpec.ptr_step {less : K → K → Bool} {p : Nat} (op : SCOp K V) (hop : op.setsPtr p = false) (s : SCSpec K V) :
    (s.ptrs p).isSome = ((s.step less op).2.ptrs p).isSome := by
  cases op with
  | map r op => simp [SCSpec.step]
  | iterate c => rfl
  | lowerBound c k => rfl
  | upperBound c k => rfl
  | findRange c a b => rfl
  | isNotEnd c => rfl
  | key c => simp only [SCSpec.step]; split <;> rfl
  | value c => simp only [SCSpec.step]; split <;> rfl
  | next c => simp only [SCSpec.step]; split <;> rfl
  | pointer x c =>
    have hx : ¬ p = x := by simpa [SCOp.setsPtr, eq_comm] using hop
    simp only [SCSpec.step]; split
    · simp [SCSpec.point, hx]
    · rfl
  | find x k =>
    have hx : ¬ p = x := by simpa [SCOp.setsPtr, eq_comm] using hop
    simp [SCSpec.step, SCSpec.point, hx]
  | read x => simp only [SCSpec.step]; split <;> rfl
  | write x v =>
    simp only [SCSpec.step]
    cases hx : s.ptrs x with
    | none => rfl
    | some d => cases d <;> rfl

theorem SCSpec.ptr_run {less : K → K → Bool} {p : Nat} (ops : List (SCOp K V)) (hop : ∀ op ∈ ops, op.setsPtr p = false) : ∀ (s : SCSpec K V),
    (s.ptrs p).isSome = ((s.run less ops).2.ptrs p).isSome := by
  induction ops with
  | nil => intro s; rfl
  | cons op ops ih =>
    intro s
    rw [SCSpec.ptr_step (less := less) op (hop op (by simp)) s, ih (fun o ho => hop o (by simp [ho])) _]
    rfl

theorem SCWorld.run_append (impl : SLImpl K) (a b : List (SCOp K V)) : ∀ (w : SCWorld K V),
    (w.run impl (a ++ b)).2 = ((w.run impl a).2.run impl b).2 := by
  induction a with
  | nil => intro w; rfl
  | cons op a ih => intro w; simp only [List.cons_append, SCWorld.run]; exact ih _

theorem SCSpec.run_append (less : K → K → Bool) (a b : List (SCOp K V)) : ∀ (w : SCSpec K V),
    (w.run less (a ++ b)).2 = ((w.run less a).2.run less b).2 := by
  induction a with
  | nil => intro w; rfl
  | cons op a ih => intro w; simp only [List.cons_append, SCSpec.run]; exact ih _

end Stl4go
