import Verif.Proofs.SkipListSearch
import Verif.Proofs.SortedMap
import Verif.Spec.SkipList
/-! # Skip list: representation invariant, lookups -/
namespace Stl4go
variable {K V : Type}

/-! ## Decisions of the search loops under a lawful order -/

/-- Decision of `findNode`, `lowerBound`, `findInsertPoint`. -/
def SLImpl.dec (impl : SLImpl K) (key k : K) : Dec :=
  match impl with
  | .ordered _ => decO key k
  | .func c => decF c key k

/-- Decision of `findPrevNodes`. -/
def SLImpl.decP (impl : SLImpl K) (key k : K) : Dec :=
  match impl with
  | .ordered _ => decPO key k
  | .func c => decPF c key k

theorem SLImpl.Lawful.weak {impl : SLImpl K} (h : impl.Lawful) : StrictWeak impl.less := by
  cases impl with
  | ordered o => exact @LawfulGoOrd.weak K o h
  | func c => exact LawfulCmp.weak h

theorem LawfulCmp.pos_iff {c : K → K → Int} (h : LawfulCmp c) (a b : K) : c a b > 0 ↔ c b a < 0 := by
  have hz := h.zero_iff a b
  simp only [Equiv, decide_eq_false_iff_not] at hz
  constructor
  · intro hp
    have : ¬ (¬ c a b < 0 ∧ ¬ c b a < 0) := by rw [← hz]; omega
    omega
  · intro hn
    have := h.weak.asymm (a := b) (b := a) (by simpa using hn)
    simp at this
    have : c a b ≠ 0 := by rw [Ne, hz]; omega
    omega

theorem SLImpl.dec_eq {impl : SLImpl K} (h : impl.Lawful) (key k : K) :
    impl.dec key k = if impl.less k key then .go else if impl.less key k then .stop else .hit := by
  cases impl with
  | ordered o =>
    have hl : LawfulGoOrd K := h
    have he := hl.eq_iff k key
    simp only [SLImpl.dec, decO, SLImpl.less]
    have has := fun h => hl.weak.asymm (a := k) (b := key) h
    rcases Bool.eq_false_or_eq_true (o.lt k key) with h1 | h1 <;> rcases Bool.eq_false_or_eq_true (o.lt key k) with h2 | h2 <;>
      rcases Bool.eq_false_or_eq_true (GoEq.eq k key) with h3 | h3 <;> simp_all
  | func c =>
    have hl : LawfulCmp c := h
    have hp := hl.pos_iff k key
    have hz := hl.zero_iff k key
    simp only [Equiv, decide_eq_false_iff_not] at hz
    simp only [SLImpl.dec, decF, SLImpl.less, decide_eq_true_eq]
    by_cases h1 : c k key < 0
    · have e1 : ¬ c k key = 0 := by omega
      have e2 : ¬ c k key > 0 := by omega
      simp [h1, e1, e2]
    · by_cases h2 : c key k < 0
      · have e2 := hp.2 h2
        have e1 : ¬ c k key = 0 := by omega
        simp [h1, h2, e1, e2]
      · have := hz.2 ⟨h1, h2⟩
        simp [h2, this]

theorem SLImpl.decP_eq {impl : SLImpl K} (h : impl.Lawful) (key k : K) :
    impl.decP key k = if impl.less k key then .go else .stop := by
  cases impl with
  | ordered o =>
    have hl : LawfulGoOrd K := h
    have he := hl.eq_iff k key
    simp only [SLImpl.decP, decPO, SLImpl.less, GoOrd.ge]
    have has := fun h => hl.weak.asymm (a := k) (b := key) h
    rcases Bool.eq_false_or_eq_true (o.lt k key) with h1 | h1 <;> rcases Bool.eq_false_or_eq_true (o.lt key k) with h2 | h2 <;>
      rcases Bool.eq_false_or_eq_true (GoEq.eq k key) with h3 | h3 <;> simp_all
  | func c =>
    simp only [SLImpl.decP, decPF, SLImpl.less, decide_eq_true_eq]
    by_cases h1 : c k key < 0
    · have e1 : ¬ c k key ≥ 0 := by omega
      simp [h1, e1]
    · have e1 : c k key ≥ 0 := by omega
      simp [h1, e1]

theorem SLImpl.keyNe_eq {impl : SLImpl K} (h : impl.Lawful) (a b : K) :
    impl.keyNe a b = (impl.less a b || impl.less b a) := by
  cases impl with
  | ordered o =>
    have hl : LawfulGoOrd K := h
    have he := hl.eq_iff a b
    simp only [SLImpl.keyNe, SLImpl.less]
    rcases Bool.eq_false_or_eq_true (o.lt a b) with h1 | h1 <;> rcases Bool.eq_false_or_eq_true (o.lt b a) with h2 | h2 <;>
      rcases Bool.eq_false_or_eq_true (GoEq.eq a b) with h3 | h3 <;> simp_all
  | func c =>
    have hl : LawfulCmp c := h
    have hz := hl.zero_iff a b
    simp only [Equiv, decide_eq_false_iff_not] at hz
    simp only [SLImpl.keyNe, SLImpl.less]
    by_cases h1 : c a b < 0
    · have : c a b ≠ 0 := by omega
      simp [h1, this]
    · by_cases h2 : c b a < 0
      · have : c a b ≠ 0 := by rw [Ne, hz]; omega
        simp [h2, this]
      · have := hz.2 ⟨h1, h2⟩
        simp [h2, this]

/-! ## Representation invariant -/

/-- `sl` stores the sorted map `m`, in the nodes `ids`; its counter is off by `d` (which happens only with copies of lists, C148). -/
structure SLInvD (d : Int) (less : K → K → Bool) (sl : SL K V) (ids : List Nat) (m : List (K × V)) : Prop where
  linked : Linked sl.get sl.lvl ids
  lvl_pos : ∀ p ∈ ids, 0 < sl.lvl p
  lvl_le : ∀ p ∈ ids, sl.lvl p ≤ sl.level
  level_pos : 1 ≤ sl.level
  level_le : sl.level ≤ 40
  head_len : sl.headNext.length = 40
  cache_len : sl.prevsCache.length = 40
  count : ids.length ≤ sl.nodes.length
  len_d : sl.len = ids.length + d
  kvs : ids.map sl.kv = m.map some
  sorted : SMap.Sorted less m

/-- `sl` stores the sorted map `m`, in the nodes `ids`. -/
abbrev SLInv (less : K → K → Bool) (sl : SL K V) (ids : List Nat) (m : List (K × V)) : Prop := SLInvD 0 less sl ids m

theorem SLInv.len_eq {less : K → K → Bool} {sl : SL K V} {ids : List Nat} {m : List (K × V)} (h : SLInv less sl ids m) : sl.len = ids.length := by
  have := h.len_d; omega

theorem mem_kv {sl : SL K V} {ids : List Nat} {m : List (K × V)} (h : ids.map sl.kv = m.map some) {p : Nat} (hp : p ∈ ids) :
    ∃ e ∈ m, sl.kv p = some e := by
  have : sl.kv p ∈ ids.map sl.kv := List.mem_map_of_mem hp
  rw [h, List.mem_map] at this
  obtain ⟨e, he, e2⟩ := this
  exact ⟨e, he, e2.symm⟩

theorem split_ids {sl : SL K V} {ids : List Nat} {G H S : List (K × V)} (h : ids.map sl.kv = (G ++ (H ++ S)).map some) :
    ∃ iG iH iS, ids = iG ++ (iH ++ iS) ∧ iG.map sl.kv = G.map some ∧ iH.map sl.kv = H.map some ∧
      iS.map sl.kv = S.map some := by
  rw [List.map_append, List.map_append, List.map_eq_append_iff] at h
  obtain ⟨iG, r, rfl, h1, h2⟩ := h
  rw [List.map_eq_append_iff] at h2
  obtain ⟨iH, iS, rfl, h2, h3⟩ := h2
  exact ⟨iG, iH, iS, rfl, h1, h2, h3⟩

/-- The position of a key, in the specification and among the nodes. -/
structure Pos (less : K → K → Bool) (sl : SL K V) (ids : List Nat) (m : List (K × V)) (key : K)
    (iG iH iS : List Nat) (G H S : List (K × V)) : Prop where
  sp : SSplit less key m G H S
  ids_eq : ids = iG ++ (iH ++ iS)
  kG : iG.map sl.kv = G.map some
  kH : iH.map sl.kv = H.map some
  kS : iS.map sl.kv = S.map some

variable {impl : SLImpl K} {sl : SL K V} {ids : List Nat} {m : List (K × V)} {d : Int}

theorem SLInvD.pos (hl : impl.Lawful) (h : SLInvD d impl.less sl ids m) (key : K) :
    ∃ iG iH iS G H S, Pos impl.less sl ids m key iG iH iS G H S := by
  obtain ⟨G, H, S, sp⟩ := SSplit.exists hl.weak key m h.sorted
  have hk := h.kvs
  rw [sp.eq] at hk
  obtain ⟨iG, iH, iS, h1, h2, h3, h4⟩ := split_ids hk
  exact ⟨iG, iH, iS, G, H, S, sp, h1, h2, h3, h4⟩

variable {key : K} {iG iH iS : List Nat} {G H S : List (K × V)}

theorem Pos.len_H (p : Pos impl.less sl ids m key iG iH iS G H S) : iH.length = H.length := by
  have := congrArg List.length p.kH; simpa using this

theorem Pos.cases (p : Pos impl.less sl ids m key iG iH iS G H S) :
    (iH = [] ∧ H = []) ∨ ∃ q e, iH = [q] ∧ H = [e] ∧ sl.kv q = some e := by
  rcases p.sp.cases with rfl | ⟨e, rfl⟩
  · have := p.len_H; simp at this; exact .inl ⟨this, rfl⟩
  · have hl := p.len_H
    match iH, hl, p.kH with
    | [q], _, hk => simp at hk; exact .inr ⟨q, e, rfl, rfl, hk⟩

theorem Pos.split (hl : impl.Lawful) (p : Pos impl.less sl ids m key iG iH iS G H S) :
    Split (impl.dec key) sl ids iG iH iS where
  ids_eq := p.ids_eq
  go := fun q hq => by
    obtain ⟨e, he, hkv⟩ := mem_kv p.kG hq
    exact ⟨e, hkv, by rw [SLImpl.dec_eq hl, p.sp.go e he]; rfl⟩
  hit := fun q hq => by
    obtain ⟨e, he, hkv⟩ := mem_kv p.kH hq
    have := p.sp.hit e he
    exact ⟨e, hkv, by rw [SLImpl.dec_eq hl, this.1, this.2]; rfl⟩
  stop := fun q hq => by
    obtain ⟨e, he, hkv⟩ := mem_kv p.kS hq
    have := p.sp.stop e he
    exact ⟨e, hkv, by rw [SLImpl.dec_eq hl, this, hl.weak.asymm this]; rfl⟩
  one := by rw [p.len_H]; exact p.sp.one

theorem Pos.splitP (hl : impl.Lawful) (p : Pos impl.less sl ids m key iG iH iS G H S) :
    Split (impl.decP key) sl ids iG [] (iH ++ iS) where
  ids_eq := p.ids_eq
  go := fun q hq => by
    obtain ⟨e, he, hkv⟩ := mem_kv p.kG hq
    exact ⟨e, hkv, by rw [SLImpl.decP_eq hl, p.sp.go e he]; rfl⟩
  hit := by simp
  stop := fun q hq => by
    rcases List.mem_append.1 hq with hq | hq
    · obtain ⟨e, he, hkv⟩ := mem_kv p.kH hq
      exact ⟨e, hkv, by rw [SLImpl.decP_eq hl, (p.sp.hit e he).1]; rfl⟩
    · obtain ⟨e, he, hkv⟩ := mem_kv p.kS hq
      exact ⟨e, hkv, by rw [SLImpl.decP_eq hl, hl.weak.asymm (p.sp.stop e he)]; rfl⟩
  one := by simp

theorem firstAt_zero {lvl : Nat → Nat} {B : List Nat} (h : ∀ q ∈ B, 0 < lvl q) : firstAt lvl 0 B = B.head? := by
  cases B with
  | nil => rfl
  | cons q B => rw [firstAt_cons_pos (h q (by simp))]; rfl

theorem SLInvD.firstAt_zero {less : K → K → Bool} (h : SLInvD d less sl ids m) {B : List Nat} (hB : ∀ q ∈ B, q ∈ ids) :
    firstAt sl.lvl 0 B = B.head? := Stl4go.firstAt_zero (fun q hq => h.lvl_pos q (hB q hq))

/-! ## Lookups -/

theorem SLInvD.outer_hit (hl : impl.Lawful) (h : SLInvD d impl.less sl ids m) {q : Nat}
    (p : Pos impl.less sl ids m key iG [q] iS G H S) :
    findOuter (impl.dec key) sl sl.level .head = .ret (.inl q) := by
  have hq : q ∈ ids := by rw [p.ids_eq]; simp
  have e : Ref.head = lastAt sl.lvl 40 iG := (lastAt_head (fun x hx => by
    have := h.lvl_le x (by rw [p.ids_eq]; simp [hx]); have := h.level_le; omega)).symm
  rw [e]
  exact findOuter_hit h.linked (p.split hl) h.count (h.lvl_pos q hq) _ _ (by have := h.level_le; omega) h.level_le h.level_pos

theorem SLInvD.outer_miss (hl : impl.Lawful) (h : SLInvD d impl.less sl ids m)
    (p : Pos impl.less sl ids m key iG [] iS G H S) :
    findOuter (impl.dec key) sl sl.level .head = .ret (.inr (lastAt sl.lvl 0 iG)) := by
  have e : Ref.head = lastAt sl.lvl 40 iG := (lastAt_head (fun x hx => by
    have := h.lvl_le x (by rw [p.ids_eq]; simp [hx]); have := h.level_le; omega)).symm
  rw [e, findOuter_miss h.linked (p.split hl) h.count _ _ (by have := h.level_le; omega) h.level_le]
  have := h.level_pos
  rw [if_neg (by omega)]

theorem SLInvD.next_G {less : K → K → Bool} (h : SLInvD d less sl ids m) {R : List Nat} (e : ids = iG ++ R) :
    sl.nextAt (lastAt sl.lvl 0 iG) 0 = .ret R.head? := by
  apply SL.nextAt_of_get
  have L := h.linked
  rw [e] at L
  rw [L.get_lastAt (by omega), h.firstAt_zero]
  intro q hq; rw [e]; simp [hq]

theorem SLInvD.next_node {less : K → K → Bool} (h : SLInvD d less sl ids m) {q : Nat} {A B : List Nat} (e : ids = A ++ q :: B) :
    ∃ n, sl.nodes[q]? = some n ∧ sl.kv q = some (n.key, n.value) ∧ n.next[0]? = some B.head? := by
  have hq : q ∈ ids := by rw [e]; simp
  obtain ⟨x, hx⟩ := SL.kv_of_lvl (h.lvl_pos q hq)
  obtain ⟨n, hn, hk, hv⟩ := SL.kv_some hx
  refine ⟨n, hn, by rw [hx, hk, hv], ?_⟩
  have := h.linked.node_get A q B e 0 (h.lvl_pos q hq)
  rw [SL.get_node hn] at this
  rw [this, h.firstAt_zero]
  intro x hx; rw [e]; simp [hx]

theorem SLInvD.lowerBound (hl : impl.Lawful) (h : SLInvD d impl.less sl ids m)
    (p : Pos impl.less sl ids m key iG iH iS G H S) :
    sl.lowerBound impl key = .ret (iH ++ iS).head? := by
  rcases p.cases with ⟨rfl, rfl⟩ | ⟨q, e, rfl, rfl, hkv⟩
  · have := h.outer_miss hl p
    have hn := h.next_G (iG := iG) (R := iS) (by simpa using p.ids_eq)
    cases impl with
    | ordered o =>
      simp only [SL.lowerBound, SL.lowerBoundO, SL.doFindNode, doFindNodeOuter_eq]
      have this : findOuter (decO key) sl sl.level .head = _ := this
      rw [this]; exact hn
    | func c =>
      simp only [SL.lowerBound, SL.lowerBoundF, lowerBoundOuterF_eq]
      have this : findOuter (decF c key) sl sl.level .head = _ := this
      rw [this]; exact hn
  · have := h.outer_hit hl p
    cases impl with
    | ordered o =>
      simp only [SL.lowerBound, SL.lowerBoundO, SL.doFindNode, doFindNodeOuter_eq]
      have this : findOuter (decO key) sl sl.level .head = _ := this
      rw [this]; rfl
    | func c =>
      simp only [SL.lowerBound, SL.lowerBoundF, lowerBoundOuterF_eq]
      have this : findOuter (decF c key) sl sl.level .head = _ := this
      rw [this]; rfl

theorem SLImpl.not_ne_hit {a b : K} (hl : impl.Lawful) (h : impl.less a b = false ∧ impl.less b a = false) :
    impl.keyNe a b = false := by rw [SLImpl.keyNe_eq hl, h.1, h.2]; rfl

theorem SLImpl.ne_stop {a b : K} (hl : impl.Lawful) (h : impl.less b a = true) : impl.keyNe a b = true := by
  rw [SLImpl.keyNe_eq hl, h]; simp

theorem SLInvD.findNode (hl : impl.Lawful) (h : SLInvD d impl.less sl ids m)
    (p : Pos impl.less sl ids m key iG iH iS G H S) :
    sl.findNode impl key = .ret iH.head? := by
  cases himpl : impl with
  | ordered o =>
    subst himpl
    rcases p.cases with ⟨rfl, rfl⟩ | ⟨q, e, rfl, rfl, hkv⟩
    · have := h.outer_miss hl p
      simp only [SL.findNode, SL.findNodeO, SL.doFindNode, doFindNodeOuter_eq]
      have this : findOuter (decO key) sl sl.level .head = _ := this
      rw [this]; rfl
    · have := h.outer_hit hl p
      simp only [SL.findNode, SL.findNodeO, SL.doFindNode, doFindNodeOuter_eq]
      have this : findOuter (decO key) sl sl.level .head = _ := this
      rw [this]; rfl
  | func c =>
    have hlb := h.lowerBound hl p
    simp only [himpl, SL.lowerBound] at hlb
    simp only [SL.findNode, SL.findNodeF, hlb, Outcome.ret_bind]
    rcases p.cases with ⟨rfl, rfl⟩ | ⟨q, e, rfl, rfl, hkv⟩
    · cases iS with
      | nil => rfl
      | cons s iS =>
        obtain ⟨e, he, hkv⟩ := mem_kv p.kS (p := s) (by simp)
        obtain ⟨n, hn, hk, _⟩ := SL.kv_some hkv
        have := SLImpl.ne_stop hl (p.sp.stop e he)
        simp only [himpl, SLImpl.keyNe, bne_iff_ne] at this
        simp [SL.deref, idx_of_get hn, hk, this]
    · obtain ⟨n, hn, hk, _⟩ := SL.kv_some hkv
      have := SLImpl.not_ne_hit hl (p.sp.hit e (by simp))
      simp only [himpl, SLImpl.keyNe, bne_eq_false_iff_eq] at this
      simp [SL.deref, idx_of_get hn, hk, this]

theorem SLInvD.upperBound (hl : impl.Lawful) (h : SLInvD d impl.less sl ids m)
    (p : Pos impl.less sl ids m key iG iH iS G H S) :
    sl.upperBound impl key = .ret iS.head? := by
  have hlb := h.lowerBound hl p
  rcases p.cases with ⟨rfl, rfl⟩ | ⟨q, e, rfl, rfl, hkv⟩
  · cases iS with
    | nil =>
      cases himpl : impl <;> simp only [himpl, SL.lowerBound] at hlb <;>
        simp [SL.upperBound, SL.upperBoundO, SL.upperBoundF, hlb]
    | cons s iS =>
      obtain ⟨e, he, hkv⟩ := mem_kv p.kS (p := s) (by simp)
      obtain ⟨n, hn, hk, _⟩ := SL.kv_some hkv
      have hne := SLImpl.ne_stop hl (p.sp.stop e he)
      cases himpl : impl <;> simp only [himpl, SL.lowerBound] at hlb <;> simp [himpl, SLImpl.keyNe] at hne <;>
        simp [SL.upperBound, SL.upperBoundO, SL.upperBoundF, hlb, SL.deref, idx_of_get hn, hk, hne]
  · obtain ⟨n, hn, hkv', hnx⟩ := h.next_node (q := q) (A := iG) (B := iS) (by rw [p.ids_eq]; simp)
    have hk : n.key = e.1 := by rw [hkv] at hkv'; injection hkv' with hh; rw [hh]
    have hne := SLImpl.not_ne_hit hl (p.sp.hit e (by simp))
    cases himpl : impl <;> simp only [himpl, SL.lowerBound] at hlb <;> simp [himpl, SLImpl.keyNe] at hne <;>
      simp [SL.upperBound, SL.upperBoundO, SL.upperBoundF, hlb, SL.deref, idx_of_get hn, hk, hne, idx_of_get hnx]

end Stl4go
