import Verif.Proofs.SkipListPath
import Verif.Spec.SkipListAny
/-! # Skip list: every operation, for a comparison that obeys no law -/
namespace Stl4go
variable {K V : Type}

/-- The representation invariant without the order of the keys. -/
abbrev SLLoose (sl : SL K V) (ids : List Nat) (m : List (K × V)) : Prop := SLInv (fun _ _ => true) sl ids m

theorem loose_sorted (m : List (K × V)) : SMap.Sorted (fun _ _ => true) m := List.pairwise_of_forall (fun _ _ => rfl)

variable {impl : SLImpl K} {sl : SL K V} {ids : List Nat} {m : List (K × V)} {key : K}

/-! ## Decisions -/

theorem SLImpl.keyNe_same (impl : SLImpl K) (a b : K) : impl.keyNe a b = !impl.same a b := by
  cases impl <;> simp [SLImpl.keyNe, SLImpl.same, bne]

theorem SLImpl.dec_hit (impl : SLImpl K) (key k : K) : impl.dec key k = .hit ↔ impl.same k key = true := by
  cases impl with
  | ordered o =>
    simp only [SLImpl.dec, decO, SLImpl.same]
    split
    · simp_all
    · split <;> simp_all
  | func c =>
    simp only [SLImpl.dec, decF, SLImpl.same, beq_iff_eq]
    split
    · simp_all
    · split <;> simp_all

theorem SLImpl.decP_eq_any (impl : SLImpl K) (key k : K) :
    impl.decP key k = if impl.dec key k = .go then .go else .stop := by
  cases impl with
  | ordered o =>
    simp only [SLImpl.decP, decPO, SLImpl.dec, decO, GoOrd.ge]
    rcases Bool.eq_false_or_eq_true (GoEq.eq k key) with h1 | h1 <;>
      rcases Bool.eq_false_or_eq_true (GoOrd.lt key k) with h2 | h2 <;> simp [h1, h2]
  | func c =>
    simp only [SLImpl.decP, decPF, SLImpl.dec, decF]
    by_cases h1 : c k key = 0
    · simp [h1]
    · by_cases h2 : c k key > 0
      · have : c k key ≥ 0 := by omega
        simp [h1, h2, this]
      · have : ¬ c k key ≥ 0 := by omega
        simp [h1, h2, this]

theorem SL.decAt_kv {dec : K → Dec} {p : Nat} {e : K × V} (h : sl.kv p = some e) : sl.decAt dec p = dec e.1 := by
  simp [SL.decAt, h]

/-! ## Where searches end -/

theorem kv_lists {p : Nat → Option (K × V)} {A B : List Nat} {m : List (K × V)} (h : (A ++ B).map p = m.map some) :
    ∃ mA mB, m = mA ++ mB ∧ A.map p = mA.map some ∧ B.map p = mB.map some := by
  rw [List.map_append] at h
  obtain ⟨mA, mB, e, h1, h2⟩ := List.map_eq_append_iff.1 h.symm
  exact ⟨mA, mB, e, h1.symm, h2.symm⟩

theorem kv_cons {p : Nat → Option (K × V)} {q : Nat} {B : List Nat} {m : List (K × V)} (h : (q :: B).map p = m.map some) :
    ∃ e mB, m = e :: mB ∧ p q = some e ∧ B.map p = mB.map some := by
  cases m with
  | nil => simp at h
  | cons e mB => simp at h; exact ⟨e, mB, rfl, h.1, by simpa using h.2⟩

/-- A search that finds nothing. -/
structure Miss (dec : K → Dec) (sl : SL K V) (ids : List Nat) (m : List (K × V)) (iG iR : List Nat) (G R : List (K × V)) : Prop where
  ids_eq : ids = iG ++ iR
  m_eq : m = G ++ R
  kG : iG.map sl.kv = G.map some
  kR : iR.map sl.kv = R.map some
  path : MissPath sl.lvl (sl.decAt dec) iG iR

/-- A search that finds a node. -/
structure Hit (dec : K → Dec) (sl : SL K V) (ids : List Nat) (m : List (K × V)) (iG : List Nat) (q : Nat) (iS : List Nat)
    (G : List (K × V)) (e : K × V) (S : List (K × V)) : Prop where
  ids_eq : ids = iG ++ q :: iS
  m_eq : m = G ++ e :: S
  kG : iG.map sl.kv = G.map some
  kq : sl.kv q = some e
  kS : iS.map sl.kv = S.map some
  path : HitPath sl.lvl (sl.decAt dec) iG q iS

theorem SLInv.search {less : K → K → Bool} (h : SLInv less sl ids m) (dec : K → Dec) :
    (∃ iG iR G R, Miss dec sl ids m iG iR G R) ∨ ∃ iG q iS G e S, Hit dec sl ids m iG q iS G e S := by
  rcases exists_path sl.lvl (sl.decAt dec) sl.level ids h.lvl_le with ⟨iG, iR, e, p⟩ | ⟨iG, q, iS, e, p⟩
  · have hk := h.kvs
    rw [e] at hk
    obtain ⟨G, R, e1, e2, e3⟩ := kv_lists hk
    exact .inl ⟨iG, iR, G, R, e, e1, e2, e3, p⟩
  · have hk := h.kvs
    rw [e] at hk
    obtain ⟨G, R, e1, e2, e3⟩ := kv_lists hk
    obtain ⟨x, S, rfl, e4, e5⟩ := kv_cons e3
    exact .inr ⟨iG, q, iS, G, x, S, e, e1, e2, e4, e5, p⟩

variable {iG iR iS : List Nat} {G R S : List (K × V)} {q : Nat} {e : K × V} {less : K → K → Bool} {dec : K → Dec}

theorem Hit.same (p : Hit (impl.dec key) sl ids m iG q iS G e S) : impl.same e.1 key = true := by
  rw [← SLImpl.dec_hit]; exact (SL.decAt_kv p.kq).symm.trans p.path.hit

theorem SLInv.head_eq (h : SLInv less sl ids m) (hG : ∀ x ∈ iG, x ∈ ids) : Ref.head = lastAt sl.lvl sl.level iG :=
  (h.head_lastAt hG (Nat.le_refl _)).symm

theorem SLInv.outer_missA (h : SLInv less sl ids m) (p : Miss dec sl ids m iG iR G R) :
    findOuter dec sl sl.level .head = .ret (.inr (lastAt sl.lvl 0 iG)) := by
  rw [h.head_eq (iG := iG) (fun x hx => by rw [p.ids_eq]; simp [hx])]
  exact p.path.findOuter h.linked p.ids_eq h.count _ h.level_le

theorem SLInv.outer_hitA (h : SLInv less sl ids m) (p : Hit dec sl ids m iG q iS G e S) :
    findOuter dec sl sl.level .head = .ret (.inl q) := by
  have hq : q ∈ ids := by rw [p.ids_eq]; simp
  rw [h.head_eq (iG := iG) (fun x hx => by rw [p.ids_eq]; simp [hx])]
  exact p.path.findOuter h.linked p.ids_eq h.count (h.lvl_pos q hq) _ h.level_le (h.lvl_le q hq)

/-- The first node behind a search that found nothing does not compare equal. -/
theorem SLInv.miss_next (h : SLInv less sl ids m) {s : Nat} (p : Miss (impl.dec key) sl ids m iG (s :: iR) G R) :
    ∃ e, sl.kv s = some e ∧ impl.same e.1 key = false := by
  obtain ⟨e, R', rfl, hk, _⟩ := kv_cons p.kR
  refine ⟨e, hk, ?_⟩
  have hs : 0 < sl.lvl s := h.lvl_pos s (by rw [p.ids_eq]; simp)
  have := p.path.stop 0 s (firstAt_cons_pos hs)
  rw [SL.decAt_kv hk] at this
  cases hx : impl.same e.1 key with
  | false => rfl
  | true => rw [← SLImpl.dec_hit, this] at hx; exact absurd hx (by simp)

theorem SLInv.lowerBound_missA (h : SLInv less sl ids m) (p : Miss (impl.dec key) sl ids m iG iR G R) :
    sl.lowerBound impl key = .ret iR.head? := by
  have ho := h.outer_missA p
  have hn := h.next_G p.ids_eq
  cases impl with
  | ordered o =>
    have ho : findOuter (decO key) sl sl.level .head = _ := ho
    simp only [SL.lowerBound, SL.lowerBoundO, SL.doFindNode, doFindNodeOuter_eq, ho]; exact hn
  | func c =>
    have ho : findOuter (decF c key) sl sl.level .head = _ := ho
    simp only [SL.lowerBound, SL.lowerBoundF, lowerBoundOuterF_eq, ho]; exact hn

theorem SLInv.lowerBound_hitA (h : SLInv less sl ids m) (p : Hit (impl.dec key) sl ids m iG q iS G e S) :
    sl.lowerBound impl key = .ret (some q) := by
  have ho := h.outer_hitA p
  cases impl with
  | ordered o =>
    have ho : findOuter (decO key) sl sl.level .head = _ := ho
    simp only [SL.lowerBound, SL.lowerBoundO, SL.doFindNode, doFindNodeOuter_eq, ho]; rfl
  | func c =>
    have ho : findOuter (decF c key) sl sl.level .head = _ := ho
    simp only [SL.lowerBound, SL.lowerBoundF, lowerBoundOuterF_eq, ho]; rfl

theorem SLInv.findNode_missA (h : SLInv less sl ids m) (p : Miss (impl.dec key) sl ids m iG iR G R) :
    sl.findNode impl key = .ret none := by
  cases himpl : impl with
  | ordered o =>
    subst himpl
    have ho : findOuter (decO key) sl sl.level .head = _ := h.outer_missA p
    simp only [SL.findNode, SL.findNodeO, SL.doFindNode, doFindNodeOuter_eq, ho]; rfl
  | func c =>
    have hlb := h.lowerBound_missA p
    simp only [himpl, SL.lowerBound] at hlb
    simp only [SL.findNode, SL.findNodeF, hlb, Outcome.ret_bind]
    cases iR with
    | nil => rfl
    | cons s iR =>
      obtain ⟨e, hk, hs⟩ := h.miss_next p
      obtain ⟨n, hn, hkey, _⟩ := SL.kv_some hk
      simp only [himpl, SLImpl.same, beq_eq_false_iff_ne] at hs
      simp [SL.deref, idx_of_get hn, hkey, hs]

theorem SLInv.findNode_hitA (h : SLInv less sl ids m) (p : Hit (impl.dec key) sl ids m iG q iS G e S) :
    sl.findNode impl key = .ret (some q) := by
  cases himpl : impl with
  | ordered o =>
    subst himpl
    have ho : findOuter (decO key) sl sl.level .head = _ := h.outer_hitA p
    simp only [SL.findNode, SL.findNodeO, SL.doFindNode, doFindNodeOuter_eq, ho]; rfl
  | func c =>
    have hlb := h.lowerBound_hitA p
    have hs := p.same
    obtain ⟨n, hn, hkey, _⟩ := SL.kv_some p.kq
    simp only [himpl, SLImpl.same, beq_iff_eq] at hs
    simp only [himpl, SL.lowerBound] at hlb
    simp [SL.findNode, SL.findNodeF, hlb, SL.deref, idx_of_get hn, hkey, hs]

theorem SLInv.upperBound_missA (h : SLInv less sl ids m) (p : Miss (impl.dec key) sl ids m iG iR G R) :
    sl.upperBound impl key = .ret iR.head? := by
  have hlb := h.lowerBound_missA p
  cases iR with
  | nil => cases himpl : impl <;> simp only [himpl, SL.lowerBound] at hlb <;> simp [SL.upperBound, SL.upperBoundO, SL.upperBoundF, hlb]
  | cons s iR =>
    obtain ⟨e, hk, hs⟩ := h.miss_next p
    obtain ⟨n, hn, hkey, _⟩ := SL.kv_some hk
    cases himpl : impl <;> simp only [himpl, SL.lowerBound] at hlb <;> simp [himpl, SLImpl.same] at hs <;>
      simp [SL.upperBound, SL.upperBoundO, SL.upperBoundF, hlb, SL.deref, idx_of_get hn, hkey, hs]

theorem SLInv.upperBound_hitA (h : SLInv less sl ids m) (p : Hit (impl.dec key) sl ids m iG q iS G e S) :
    sl.upperBound impl key = .ret iS.head? := by
  have hlb := h.lowerBound_hitA p
  have hs := p.same
  obtain ⟨n, hn, hkv', hnx⟩ := h.next_node p.ids_eq
  have hk : n.key = e.1 := by have := p.kq; rw [this] at hkv'; injection hkv' with hh; rw [hh]
  cases himpl : impl <;> simp only [himpl, SL.lowerBound] at hlb <;> simp [himpl, SLImpl.same] at hs <;>
    simp [SL.upperBound, SL.upperBoundO, SL.upperBoundF, hlb, SL.deref, idx_of_get hn, hk, hs, idx_of_get hnx]

theorem SLInv.findInsertPoint_hitA (h : SLInv less sl ids m) (p : Hit (impl.dec key) sl ids m iG q iS G e S) :
    ∃ prevs, prevs.length = sl.level ∧ sl.findInsertPoint impl key = .ret (sl.storePrevs prevs, some q, []) := by
  have hq : q ∈ ids := by rw [p.ids_eq]; simp
  obtain ⟨prevs, h1, h2⟩ := p.path.prevOuter h.linked p.ids_eq h.count (h.lvl_pos q hq) sl.level h.level_le (h.lvl_le q hq)
    (sl.prevsCache.take sl.level) (by rw [h.take_len]; omega)
  rw [← h.head_eq (iG := iG) (fun x hx => by rw [p.ids_eq]; simp [hx])] at h1
  refine ⟨prevs, by rw [h2, h.take_len], ?_⟩
  cases impl with
  | ordered o =>
    have h1 : prevOuter (decO key) sl sl.level .head (sl.prevsCache.take sl.level) = _ := h1
    simp only [SL.findInsertPoint, h.prevsSlice, Outcome.ret_bind, findInsertOuterO_eq, h1]; rfl
  | func c =>
    have h1 : prevOuter (decF c key) sl sl.level .head (sl.prevsCache.take sl.level) = _ := h1
    simp only [SL.findInsertPoint, h.prevsSlice, Outcome.ret_bind, findInsertOuterF_eq, h1]; rfl

theorem SLInv.findInsertPoint_missA (h : SLInv less sl ids m) (p : Miss (impl.dec key) sl ids m iG iR G R) :
    ∃ prevs, prevs.length = sl.level ∧ (∀ x, x < sl.level → prevs[x]? = some (some (lastAt sl.lvl x iG))) ∧
      sl.findInsertPoint impl key = .ret (sl.storePrevs prevs, none, prevs) := by
  obtain ⟨prevs, h1, h2, h3, _⟩ := p.path.prevOuter h.linked p.ids_eq h.count sl.level h.level_le
    (sl.prevsCache.take sl.level) (by rw [h.take_len]; omega)
  rw [← h.head_eq (iG := iG) (fun x hx => by rw [p.ids_eq]; simp [hx])] at h1
  refine ⟨prevs, by rw [h2, h.take_len], h3, ?_⟩
  cases impl with
  | ordered o =>
    have h1 : prevOuter (decO key) sl sl.level .head (sl.prevsCache.take sl.level) = _ := h1
    simp only [SL.findInsertPoint, h.prevsSlice, Outcome.ret_bind, findInsertOuterO_eq, h1]; rfl
  | func c =>
    have h1 : prevOuter (decF c key) sl sl.level .head (sl.prevsCache.take sl.level) = _ := h1
    simp only [SL.findInsertPoint, h.prevsSlice, Outcome.ret_bind, findInsertOuterF_eq, h1]; rfl

theorem SLInv.findPrevNodesA (h : SLInv less sl ids m) (p : Miss (impl.decP key) sl ids m iG iR G R) :
    ∃ prevs, prevs.length = sl.level ∧ (∀ x, x < sl.level → prevs[x]? = some (some (lastAt sl.lvl x iG))) ∧
      sl.findPrevNodes impl key = .ret (sl.storePrevs prevs, prevs) := by
  obtain ⟨prevs, h1, h2, h3, _⟩ := p.path.prevOuter h.linked p.ids_eq h.count sl.level h.level_le
    (sl.prevsCache.take sl.level) (by rw [h.take_len]; omega)
  rw [← h.head_eq (iG := iG) (fun x hx => by rw [p.ids_eq]; simp [hx])] at h1
  refine ⟨prevs, by rw [h2, h.take_len], h3, ?_⟩
  cases impl with
  | ordered o =>
    have h1 : prevOuter (decPO key) sl sl.level .head (sl.prevsCache.take sl.level) = _ := h1
    rw [← findPrevOuterO_eq] at h1
    simp only [SL.findPrevNodes, h.prevsSlice, Outcome.ret_bind, of_none_pair h1]; rfl
  | func c =>
    have h1 : prevOuter (decPF c key) sl sl.level .head (sl.prevsCache.take sl.level) = _ := h1
    rw [← findPrevOuterF_eq] at h1
    simp only [SL.findPrevNodes, h.prevsSlice, Outcome.ret_bind, of_none_pair h1]; rfl

/-- `findPrevNodes` never hits. -/
theorem SLInv.searchP (h : SLInv less sl ids m) (impl : SLImpl K) (key : K) :
    ∃ iG iR G R, Miss (impl.decP key) sl ids m iG iR G R := by
  rcases h.search (impl.decP key) with hm | ⟨iG, q, iS, G, e, S, p⟩
  · exact hm
  · exfalso
    have := p.path.hit
    rw [SL.decAt_kv p.kq, SLImpl.decP_eq_any] at this
    split at this <;> simp at this

/-! ## Insert and Remove -/

theorem SLInv.insert_hitA (h : SLInv less sl ids m) (p : Hit (impl.dec key) sl ids m iG q iS G e S) (rnd : Nat) (v : V) :
    ∃ sl', sl.insert impl rnd key v = .ret sl' ∧ SLInv less sl' ids (G ++ (e.1, v) :: S) ∧
      Hit (impl.dec key) sl' ids (G ++ (e.1, v) :: S) iG q iS G (e.1, v) S := by
  obtain ⟨prevs, hp, hf⟩ := h.findInsertPoint_hitA p
  have h' := h.store hp
  obtain ⟨sl', a1, a2, a3, a4, _⟩ := h'.setValue (A := iG) (B := iS) (q := q) (mA := G) (mB := S) (e := e)
    p.ids_eq p.m_eq p.kG p.kq p.kS v
  have hkq : (sl.storePrevs prevs).kv q = some e := p.kq
  obtain ⟨s2, b1, _, b3, _⟩ := SL.setValue_spec (sl := sl.storePrevs prevs) hkq v
  rw [a1] at b1; injection b1 with b1; subst b1
  have hnd := h.linked.nodup
  rw [p.ids_eq] at hnd
  have hne1 : ∀ x ∈ iG, x ≠ q := by
    rintro x hx rfl; exact (List.nodup_append.1 hnd).2.2 x hx x (by simp) rfl
  have hne2 : ∀ x ∈ iS, x ≠ q := by
    rintro x hx rfl; exact (List.nodup_cons.1 (List.nodup_append.1 hnd).2.1).1 hx
  have hl : sl'.lvl = sl.lvl := funext b3
  have hd : sl'.decAt (impl.dec key) = sl.decAt (impl.dec key) := by
    funext x
    by_cases hx : x = q
    · subst hx; rw [SL.decAt_kv a4, SL.decAt_kv p.kq]
    · have : sl'.kv x = sl.kv x := a3 x hx
      simp only [SL.decAt, this]
  refine ⟨sl', by simp only [SL.insert, hf, Outcome.ret_bind, a1], a2, p.ids_eq, rfl, ?_, a4, ?_, by rw [hl, hd]; exact p.path⟩
  · rw [List.map_congr_left (fun x hx => a3 x (hne1 x hx))]; exact p.kG
  · rw [List.map_congr_left (fun x hx => a3 x (hne2 x hx))]; exact p.kS

theorem SLInv.insert_missA (h : SLLoose sl ids m) (p : Miss (impl.dec key) sl ids m iG iR G R) (rnd : Nat) (v : V) :
    ∃ sl', sl.insert impl rnd key v = .ret sl' ∧ SLLoose sl' (iG ++ sl.nodes.length :: iR) (G ++ (key, v) :: R) ∧
      (∀ x ∈ ids, sl'.kv x = sl.kv x) ∧ sl'.kv sl.nodes.length = some (key, v) ∧ (∀ x ∈ ids, sl'.lvl x = sl.lvl x) ∧
      iG.map sl'.kv = G.map some ∧ iR.map sl'.kv = R.map some := by
  obtain ⟨prevs, hp, hprev, hf⟩ := h.findInsertPoint_missA p
  obtain ⟨sl', a1, a2, a3, a4, a5, _⟩ := h.insert_at p.ids_eq p.kG p.kR hp hprev hf rnd v (loose_sorted _)
  have hne : ∀ x ∈ ids, x ≠ sl.nodes.length := fun x hx => by have := SL.lvl_lt (h.lvl_pos x hx); omega
  refine ⟨sl', a1, a2, fun x hx => a3 x (hne x hx), a4, a5, ?_, ?_⟩
  · rw [List.map_congr_left (fun x hx => a3 x (hne x (by rw [p.ids_eq]; simp [hx])))]; exact p.kG
  · rw [List.map_congr_left (fun x hx => a3 x (hne x (by rw [p.ids_eq]; simp [hx])))]; exact p.kR

/-- `Remove` takes the node behind its search if that compares equal, and does nothing otherwise. -/
theorem SLInv.removeA (h : SLLoose sl ids m) (p : Miss (impl.decP key) sl ids m iG iR G R) :
    (∃ q iS e S sl', iR = q :: iS ∧ R = e :: S ∧ impl.same e.1 key = true ∧ sl.remove impl key = .ret (sl', true) ∧
      SLLoose sl' (iG ++ iS) (G ++ S)) ∨
    ((∀ e S, R = e :: S → impl.same e.1 key = false) ∧
      ∃ sl', sl.remove impl key = .ret (sl', false) ∧ SLLoose sl' ids m) := by
  obtain ⟨prevs, hp, hprev, hf⟩ := h.findPrevNodesA p
  have h0 := h.store hp
  have hn : (sl.storePrevs prevs).nextAt (lastAt sl.lvl 0 iG) 0 = .ret iR.head? := h0.next_G (iG := iG) (R := iR) p.ids_eq
  have hp0 : prevAt prevs 0 = .ret (lastAt sl.lvl 0 iG) := prevAt_of_get (hprev 0 h.level_pos)
  cases hR : iR with
  | nil =>
    subst hR
    refine .inr ⟨?_, sl.storePrevs prevs, by simp [SL.remove, SL.findRemovePoint, hf, hp0, hn], h0⟩
    intro e S hRe
    have := p.kR; rw [hRe] at this; simp at this
  | cons q iS =>
    subst hR
    obtain ⟨e, S, hRe, hk, hkS⟩ := kv_cons p.kR
    cases hs : impl.same e.1 key with
    | true =>
      obtain ⟨sl', a1, a2, _⟩ := h.remove_at (q := q) (e := e) (S := S) p.ids_eq p.kG hk hkS hp hprev hf
        (by rw [SLImpl.keyNe_same, hs]; rfl) (loose_sorted _)
      exact .inl ⟨q, iS, e, S, sl', rfl, hRe, hs, a1, a2⟩
    | false =>
      refine .inr ⟨?_, sl.storePrevs prevs, ?_, h0⟩
      · intro e' S' hRe'
        rw [hRe] at hRe'; injection hRe' with hRe' _; rw [← hRe']; exact hs
      · obtain ⟨n, hnn, hkey, _⟩ := SL.kv_some hk
        have hd : (sl.storePrevs prevs).deref q = .ret n := idx_of_get hnn
        have hne : impl.keyNe e.1 key = true := by rw [SLImpl.keyNe_same, hs]; rfl
        simp [SL.remove, SL.findRemovePoint, hf, hp0, hn, hd, hkey, hne]

/-! ## Histories -/

theorem SLInv.holds (h : SLInv less sl ids m) : sl.Holds m := by
  have := h.observe (A := []) (B := ids) rfl h.kvs
  simp [SL.Holds, h.iterate, this]

theorem SLInv.execA (h : SLLoose sl ids m) (impl : SLImpl K) (rnd : Nat) (op : SMOp K V) :
    ∃ sl' ids' m' ob, sl.exec impl rnd op = .ret (sl', ob) ∧ SLLoose sl' ids' m' ∧ LooseStep impl.same m op ob m' := by
  cases op with
  | insert k v =>
    rcases h.search (impl.dec k) with ⟨iG, iR, G, R, p⟩ | ⟨iG, q, iS, G, e, S, p⟩
    · obtain ⟨sl', a1, a2, _⟩ := h.insert_missA p rnd v
      exact ⟨sl', _, _, .unit, by simp [SL.exec, a1], a2, rfl, .inr ⟨G, R, p.m_eq, rfl⟩⟩
    · obtain ⟨sl', a1, a2, _⟩ := h.insert_hitA p rnd v
      exact ⟨sl', _, _, .unit, by simp [SL.exec, a1], a2, rfl, .inl ⟨G, e, S, p.m_eq, p.same, rfl⟩⟩
  | remove k =>
    obtain ⟨iG, iR, G, R, p⟩ := h.searchP impl k
    rcases h.removeA p with ⟨q, iS, e, S, sl', e1, e2, hs, a1, a2⟩ | ⟨_, sl', a1, a2⟩
    · exact ⟨sl', _, _, .flag true, by simp [SL.exec, a1], a2, .inl ⟨rfl, G, e, S, by rw [p.m_eq, e2], hs, rfl⟩⟩
    · exact ⟨sl', _, _, .flag false, by simp [SL.exec, a1], a2, .inr ⟨rfl, rfl⟩⟩
  | clear => exact ⟨sl.clear, [], [], .unit, rfl, h.clear, rfl, rfl⟩
  | update k v =>
    rcases h.search (impl.dec k) with ⟨iG, iR, G, R, p⟩ | ⟨iG, q, iS, G, e, S, p⟩
    · exact ⟨sl, ids, m, .flag false, by simp [SL.exec, SL.find, h.findNode_missA p], h, .inr ⟨rfl, rfl⟩⟩
    · obtain ⟨sl', a1, a2, _⟩ := h.setValue p.ids_eq p.m_eq p.kG p.kq p.kS v
      exact ⟨sl', ids, _, .flag true, by simp [SL.exec, SL.find, h.findNode_hitA p, a1], a2, .inl ⟨rfl, G, e, S, p.m_eq, p.same, rfl⟩⟩
  | find k =>
    rcases h.search (impl.dec k) with ⟨iG, iR, G, R, p⟩ | ⟨iG, q, iS, G, e, S, p⟩
    · exact ⟨sl, ids, m, .val none, by simp [SL.exec, SL.find, h.findNode_missA p], h, rfl, .inl rfl⟩
    · obtain ⟨n, hn, _, hv⟩ := SL.kv_some p.kq
      exact ⟨sl, ids, m, .val (some e.2), by simp [SL.exec, SL.find, h.findNode_hitA p, SL.readPtr, SL.deref, idx_of_get hn, hv], h, rfl,
        .inr ⟨e, by rw [p.m_eq]; simp, p.same, rfl⟩⟩
  | has k =>
    rcases h.search (impl.dec k) with ⟨iG, iR, G, R, p⟩ | ⟨iG, q, iS, G, e, S, p⟩
    · exact ⟨sl, ids, m, .flag false, by simp [SL.exec, SL.has, h.findNode_missA p], h, rfl, .inl rfl⟩
    · exact ⟨sl, ids, m, .flag true, by simp [SL.exec, SL.has, h.findNode_hitA p], h, rfl,
        .inr ⟨rfl, e, by rw [p.m_eq]; simp, p.same⟩⟩
  | len => exact ⟨sl, ids, m, .num m.length, by simp [SL.exec, SL.length, h.len_eq, h.len_m], h, rfl, rfl⟩
  | isEmpty =>
    refine ⟨sl, ids, m, .flag m.isEmpty, ?_, h, rfl, rfl⟩
    have := h.len_m
    simp only [SL.exec, SL.isEmpty, h.len_eq]
    cases m with
    | nil => simp at this; simp [this]
    | cons e m => simp at this; simp [this]; omega
  | iterate =>
    refine ⟨sl, ids, m, .entries m, ?_, h, rfl, rfl⟩
    have := h.observe (A := []) (B := ids) rfl h.kvs
    simp [SL.exec, h.iterate, this]
  | lowerBound k =>
    rcases h.search (impl.dec k) with ⟨iG, iR, G, R, p⟩ | ⟨iG, q, iS, G, e, S, p⟩
    · have := h.observe p.ids_eq p.kR
      exact ⟨sl, ids, m, .entries R, by simp [SL.exec, SL.lowerBoundIter, h.lowerBound_missA p, this], h, rfl, G, R, p.m_eq, rfl⟩
    · have := h.observe (A := iG) (B := q :: iS) (mB := e :: S) p.ids_eq (by simp [p.kq, p.kS])
      exact ⟨sl, ids, m, .entries (e :: S), by
        simp at this; simp [SL.exec, SL.lowerBoundIter, h.lowerBound_hitA p, this], h, rfl, G, e :: S, p.m_eq, rfl⟩
  | upperBound k =>
    rcases h.search (impl.dec k) with ⟨iG, iR, G, R, p⟩ | ⟨iG, q, iS, G, e, S, p⟩
    · have := h.observe p.ids_eq p.kR
      exact ⟨sl, ids, m, .entries R, by simp [SL.exec, SL.upperBoundIter, h.upperBound_missA p, this], h, rfl, G, R, p.m_eq, rfl⟩
    · have := h.observe (A := iG ++ [q]) (B := iS) (mB := S) (by simp [p.ids_eq]) p.kS
      exact ⟨sl, ids, m, .entries S, by simp [SL.exec, SL.upperBoundIter, h.upperBound_hitA p, this], h, rfl, G ++ [e], S, by simp [p.m_eq], rfl⟩

theorem SLInv.runA (impl : SLImpl K) (ops : List (Nat × SMOp K V)) : ∀ {sl : SL K V} {ids : List Nat} {m : List (K × V)},
    SLLoose sl ids m →
    ∃ sl' ids' m' obs, SL.run impl sl ops = .ret (sl', obs) ∧ SLLoose sl' ids' m' ∧ LooseRun impl.same m (opsOf ops) obs m' := by
  induction ops with
  | nil => intro sl ids m h; exact ⟨sl, ids, m, [], rfl, h, .nil m⟩
  | cons o ops ih =>
    intro sl ids m h
    obtain ⟨rnd, op⟩ := o
    obtain ⟨s1, i1, m1, ob, a1, a2, a3⟩ := h.execA impl rnd op
    obtain ⟨s2, i2, m2, obs, b1, b2, b3⟩ := ih a2
    exact ⟨s2, i2, m2, ob :: obs, by simp [SL.run, a1, b1], b2, .cons a3 b3⟩

theorem SL.Built.loose {h : List (Nat × SMOp K V)} (hb : SL.Built impl h sl) : ∃ ids m, SLLoose sl ids m := by
  obtain ⟨obs, e⟩ := hb
  obtain ⟨s, ids, m, obs', a1, a2, _⟩ := SLInv.runA impl h (SLInv.new (V := V) (fun _ _ => true))
  rw [e] at a1
  injection a1 with a1
  injection a1 with a1 _
  subst a1
  exact ⟨ids, m, a2⟩

/-! ## Insert, then search again -/

theorem Miss.after_insert {sl' : SL K V} (p : Miss (impl.dec key) sl ids m iG iR G R) {v : V}
    (hself : impl.same key key = true) (hkv : ∀ x ∈ ids, sl'.kv x = sl.kv x) (hN : sl'.kv sl.nodes.length = some (key, v))
    (hl : ∀ x ∈ ids, sl'.lvl x = sl.lvl x) (kG : iG.map sl'.kv = G.map some) (kR : iR.map sl'.kv = R.map some) :
    Hit (impl.dec key) sl' (iG ++ sl.nodes.length :: iR) (G ++ (key, v) :: R) iG sl.nodes.length iR G (key, v) R := by
  refine ⟨rfl, rfl, kG, hN, kR, p.path.add ?_ ?_ ?_⟩
  · intro x hx; exact hl x (by rw [p.ids_eq]; exact hx)
  · intro x hx; simp only [SL.decAt, hkv x (by rw [p.ids_eq]; exact hx)]
  · rw [SL.decAt_kv hN, SLImpl.dec_hit]; exact hself

theorem Miss.after_insertP {sl' : SL K V} (h : SLLoose sl ids m) (p : Miss (impl.dec key) sl ids m iG iR G R) {v : V}
    (hself : impl.same key key = true) (hkv : ∀ x ∈ ids, sl'.kv x = sl.kv x) (hN : sl'.kv sl.nodes.length = some (key, v))
    (hl : ∀ x ∈ ids, sl'.lvl x = sl.lvl x) (kG : iG.map sl'.kv = G.map some) (kR : iR.map sl'.kv = R.map some) :
    Miss (impl.decP key) sl' (iG ++ sl.nodes.length :: iR) (G ++ (key, v) :: R) iG (sl.nodes.length :: iR) G ((key, v) :: R) := by
  have hmem : ∀ x, x ∈ iG ++ iR → x ∈ ids := fun x hx => by rw [p.ids_eq]; exact hx
  have hsame : ∀ x ∈ iG ++ iR, sl'.decAt (impl.decP key) x = if sl.decAt (impl.dec key) x = .go then .go else .stop := by
    intro x hx
    have hx' := hmem x hx
    obtain ⟨e, _, hk⟩ := mem_kv h.kvs hx'
    rw [SL.decAt_kv (sl := sl') (by rw [hkv x hx', hk]), SL.decAt_kv hk, SLImpl.decP_eq_any]
  refine ⟨rfl, rfl, kG, by simp [hN, kR], ?_, ?_⟩
  · intro A q B e hB
    rw [hsame q (by rw [e]; simp), p.path.go A q B e]
    · simp
    · intro b hb
      have := hB b hb
      rwa [hl b (hmem b (by rw [e]; simp [hb])), hl q (hmem q (by rw [e]; simp))] at this
  · intro x c hc
    have hstop : impl.decP key key = .stop := by
      rw [SLImpl.decP_eq_any, (SLImpl.dec_hit impl key key).2 hself]; simp
    by_cases hx : x < sl'.lvl sl.nodes.length
    · rw [firstAt_cons_pos hx] at hc
      injection hc with hc; subst hc
      rw [SL.decAt_kv hN]; exact hstop
    · rw [firstAt_cons_neg hx, firstAt_congr (fun q hq => hl q (hmem q (by simp [hq])))] at hc
      obtain ⟨P, Q, hR, _⟩ := firstAt_some hc
      rw [hsame c (by rw [hR]; simp), p.path.stop x c hc]
      simp

end Stl4go
