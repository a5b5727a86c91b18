import Verif.Proofs.SkipListRun
import Verif.Spec.ForEach
/-! # Skip list: ForEach family and pointers -/
namespace Stl4go
variable {K V σ : Type}
variable {impl : SLImpl K} {sl : SL K V} {ids : List Nat} {m : List (K × V)}

/-! ## ForEach and ForEachIf -/

theorem SLInv.forEachIfLoop (h : SLInv impl.less sl ids m) (f : σ → K → V → σ × Bool)
    (op : SL K V × σ → K → V → Outcome ((SL K V × σ) × Bool))
    (hop : ∀ t k v, op (sl, t) k v = .ret ((sl, (f t k v).1), (f t k v).2)) (B : List Nat) :
    ∀ (A : List Nat) (mB : List (K × V)) (fuel : Nat) (t : σ), ids = A ++ B → B.map sl.kv = mB.map some → B.length < fuel →
    SL.forEachIfLoop op fuel B.head? (sl, t) = .ret (sl, visitWhile f t mB) := by
  induction B with
  | nil =>
    intro A mB fuel t _ hk hf
    cases mB with
    | nil =>
      cases fuel with
      | zero => simp at hf
      | succ n => rfl
    | cons => simp at hk
  | cons q B ih =>
    intro A mB fuel t hids hk hf
    cases mB with
    | nil => simp at hk
    | cons e mB =>
      cases fuel with
      | zero => simp at hf
      | succ n =>
        simp only [List.map_cons, List.cons.injEq] at hk
        obtain ⟨nd, hn, hkv, hnx⟩ := h.next_node (q := q) (A := A) (B := B) hids
        have hee : e = (nd.key, nd.value) := by rw [hk.1] at hkv; injection hkv
        subst hee
        have := ih (A ++ [q]) mB n (f t nd.key nd.value).1 (by rw [hids]; simp) hk.2 (by simp at hf; omega)
        simp only [List.head?_cons, SL.forEachIfLoop, SL.deref, idx_of_get hn, Outcome.ret_bind, hop, visitWhile]
        cases hb : (f t nd.key nd.value).2 with
        | false => rfl
        | true => simp [idx_of_get hnx, this]

theorem forEachLoop_eq (op : SL K V × σ → K → V → Outcome (SL K V × σ)) (fuel : Nat) (e : Option Nat) (s : SL K V × σ) :
    SL.forEachLoop op fuel e s = SL.forEachIfLoop (fun s k v => do let s ← op s k v; return (s, true)) fuel e s := by
  induction fuel generalizing e s with
  | zero => rfl
  | succ n ih =>
    cases e with
    | none => rfl
    | some e =>
      simp only [SL.forEachLoop, SL.forEachIfLoop, bind_assoc, pure_bind]
      congr 1; funext nd; congr 1; funext s'
      simp [ih]

theorem visitWhile_true (f : σ → K → V → σ) (t : σ) (m : List (K × V)) :
    visitWhile (fun t k v => (f t k v, true)) t m = visitAll f t m := by
  induction m generalizing t with
  | nil => rfl
  | cons e m ih => simp [visitWhile, visitAll, ih]

theorem SLInv.head_get0 (h : SLInv impl.less sl ids m) : idx sl.headNext 0 = .ret ids.head? := by
  have := h.linked.head_get 0 (by omega)
  rw [h.firstAt_zero (fun _ hq => hq)] at this
  exact idx_of_get this

theorem SLInv.forEachIf (h : SLInv impl.less sl ids m) (f : σ → K → V → σ × Bool)
    (op : SL K V × σ → K → V → Outcome ((SL K V × σ) × Bool))
    (hop : ∀ t k v, op (sl, t) k v = .ret ((sl, (f t k v).1), (f t k v).2)) (t : σ) :
    SL.forEachIf op (sl, t) = .ret (sl, visitWhile f t m) := by
  simp only [SL.forEachIf, h.head_get0, Outcome.ret_bind]
  exact h.forEachIfLoop f op hop ids [] m _ t rfl h.kvs (by have := h.count; omega)

theorem SLInv.forEach (h : SLInv impl.less sl ids m) (f : σ → K → V → σ)
    (op : SL K V × σ → K → V → Outcome (SL K V × σ)) (hop : ∀ t k v, op (sl, t) k v = .ret (sl, f t k v)) (t : σ) :
    SL.forEach op (sl, t) = .ret (sl, visitAll f t m) := by
  simp only [SL.forEach, h.head_get0, Outcome.ret_bind, forEachLoop_eq]
  rw [← visitWhile_true]
  exact h.forEachIfLoop (fun t k v => (f t k v, true)) _ (fun t k v => by simp [hop]) ids [] m _ t rfl h.kvs
    (by have := h.count; omega)

/-! ## The mutable variants -/

theorem forEachMutableIfLoop_spec (f : σ → K → V → σ × V × Bool) (B : List Nat) :
    ∀ (sl : SL K V) (A : List Nat) (mA mB : List (K × V)) (fuel : Nat) (t : σ),
    SLInv impl.less sl (A ++ B) (mA ++ mB) → A.map sl.kv = mA.map some → B.map sl.kv = mB.map some → B.length < fuel →
    ∃ sl', SL.forEachMutableIfLoop (mutIfOp f) fuel B.head? (sl, t) = .ret (sl', (updateWhile f t mB).1) ∧
      SLInv impl.less sl' (A ++ B) (mA ++ (updateWhile f t mB).2) := by
  induction B with
  | nil =>
    intro sl A mA mB fuel t h _ hk hf
    cases mB with
    | nil =>
      cases fuel with
      | zero => simp at hf
      | succ n => exact ⟨sl, rfl, h⟩
    | cons => simp at hk
  | cons q B ih =>
    intro sl A mA mB fuel t h hA hk hf
    cases mB with
    | nil => simp at hk
    | cons e mB =>
      cases fuel with
      | zero => simp at hf
      | succ n =>
        simp only [List.map_cons, List.cons.injEq] at hk
        obtain ⟨nd, hn, hkv, hnx⟩ := h.next_node (q := q) (A := A) (B := B) rfl
        have hee : e = (nd.key, nd.value) := by rw [hk.1] at hkv; injection hkv
        subst hee
        obtain ⟨s1, a1, a2, a3, a4, a5, a6⟩ := h.setValue (A := A) (B := B) (q := q) (mA := mA) (mB := mB) rfl rfl hA hk.1 hk.2
          (f t nd.key nd.value).2.1
        obtain ⟨nd1, hn1, hkv1, hnx1⟩ := a2.next_node (q := q) (A := A) (B := B) rfl
        have hnd := h.linked.nodup
        have hkA : A.map s1.kv = mA.map some := by
          rw [← hA]; apply List.map_congr_left; intro x hx
          apply a3; rintro rfl
          exact (List.nodup_append.1 hnd).2.2 x hx x (by simp) rfl
        have hkB : B.map s1.kv = mB.map some := by
          rw [← hk.2]; apply List.map_congr_left; intro x hx
          apply a3; rintro rfl
          exact (List.nodup_cons.1 (List.nodup_append.1 hnd).2.1).1 hx
        simp only [List.head?_cons, SL.forEachMutableIfLoop, SL.deref, idx_of_get hn, Outcome.ret_bind, mutIfOp, SL.readPtr,
          Outcome.pure_eq, a1, updateWhile]
        cases hb : (f t nd.key nd.value).2.2 with
        | false => exact ⟨s1, rfl, a2⟩
        | true =>
          obtain ⟨s2, b1, b2⟩ := ih s1 (A ++ [q]) (mA ++ [(nd.key, (f t nd.key nd.value).2.1)]) mB n (f t nd.key nd.value).1
            (by simpa using a2) (by simp [hkA, a4]) hkB (by simp at hf; omega)
          refine ⟨s2, ?_, by simpa using b2⟩
          simp [idx_of_get hn1, idx_of_get hnx1, b1]

theorem SLInv.forEachMutableIf (h : SLInv impl.less sl ids m) (f : σ → K → V → σ × V × Bool) (t : σ) :
    ∃ sl', SL.forEachMutableIf (mutIfOp f) (sl, t) = .ret (sl', (updateWhile f t m).1) ∧
      SLInv impl.less sl' ids (updateWhile f t m).2 := by
  simp only [SL.forEachMutableIf, h.head_get0, Outcome.ret_bind]
  exact forEachMutableIfLoop_spec f ids sl [] [] m _ t h rfl h.kvs (by have := h.count; omega)

theorem forEachMutableLoop_eq (f : σ → K → V → σ × V) (fuel : Nat) (e : Option Nat) (s : SL K V × σ) :
    SL.forEachMutableLoop (mutOp f) fuel e s =
      SL.forEachMutableIfLoop (mutIfOp (fun t k v => ((f t k v).1, (f t k v).2, true))) fuel e s := by
  induction fuel generalizing e s with
  | zero => rfl
  | succ n ih =>
    cases e with
    | none => rfl
    | some e =>
      simp only [SL.forEachMutableLoop, SL.forEachMutableIfLoop, mutOp, mutIfOp, bind_assoc, pure_bind]
      congr 1; funext nd; congr 1; funext v; congr 1; funext s'
      simp [ih]

theorem updateWhile_true (f : σ → K → V → σ × V) (t : σ) (m : List (K × V)) :
    updateWhile (fun t k v => ((f t k v).1, (f t k v).2, true)) t m = updateAll f t m := by
  induction m generalizing t with
  | nil => rfl
  | cons e m ih => simp [updateWhile, updateAll, ih]

theorem SLInv.forEachMutable (h : SLInv impl.less sl ids m) (f : σ → K → V → σ × V) (t : σ) :
    ∃ sl', SL.forEachMutable (mutOp f) (sl, t) = .ret (sl', (updateAll f t m).1) ∧
      SLInv impl.less sl' ids (updateAll f t m).2 := by
  obtain ⟨sl', a1, a2⟩ := h.forEachMutableIf (fun t k v => ((f t k v).1, (f t k v).2, true)) t
  rw [updateWhile_true] at a1 a2
  refine ⟨sl', ?_, a2⟩
  rw [← a1]
  simp only [SL.forEachMutable, SL.forEachMutableIf, forEachMutableLoop_eq]

/-! ## Removing the current key inside ForEach -/

/-- A stored node is at the position of its key. -/
theorem SLInv.pos_at (hl : impl.Lawful) {A B : List Nat} {q : Nat} {mA mB : List (K × V)} {e : K × V} {key : K}
    (h : SLInv impl.less sl (A ++ q :: B) (mA ++ e :: mB)) (hA : A.map sl.kv = mA.map some) (hq : sl.kv q = some e)
    (hB : B.map sl.kv = mB.map some) (he : impl.less e.1 key = false ∧ impl.less key e.1 = false) :
    Pos impl.less sl (A ++ q :: B) (mA ++ e :: mB) key A [q] B mA [e] mB := by
  have hs := h.sorted
  unfold SMap.Sorted at hs
  rw [List.pairwise_append, List.pairwise_cons] at hs
  refine ⟨⟨rfl, ?_, ?_, ?_, by simp⟩, rfl, hA, by simp [hq], hB⟩
  · intro x hx
    exact hl.weak.lt_of_lt_of_not (hs.2.2 x hx e (by simp)) he.2
  · intro x hx; simp at hx; subst hx; exact he
  · intro x hx
    exact hl.weak.lt_of_not_of_lt he.1 (hs.2.1.1 x hx)

theorem sweepLoop_spec (hl : impl.Lawful) (f : σ → K → V → σ × Bool) (B : List Nat) :
    ∀ (sl : SL K V) (A : List Nat) (mA mB : List (K × V)) (fuel : Nat) (t : σ),
    SLInv impl.less sl (A ++ B) (mA ++ mB) → A.map sl.kv = mA.map some → B.map sl.kv = mB.map some → B.length < fuel →
    ∃ sl' ids', SL.forEachLoop (sweepOp impl f) fuel B.head? (sl, t) = .ret (sl', (sweep f t mB).1) ∧
      SLInv impl.less sl' ids' (mA ++ (sweep f t mB).2) := by
  induction B with
  | nil =>
    intro sl A mA mB fuel t h _ hk hf
    cases mB with
    | nil =>
      cases fuel with
      | zero => simp at hf
      | succ n => exact ⟨sl, _, rfl, h⟩
    | cons => simp at hk
  | cons q B ih =>
    intro sl A mA mB fuel t h hA hk hf
    cases mB with
    | nil => simp at hk
    | cons e mB =>
      cases fuel with
      | zero => simp at hf
      | succ n =>
        simp only [List.map_cons, List.cons.injEq] at hk
        obtain ⟨nd, hn, hkv, hnx⟩ := h.next_node (q := q) (A := A) (B := B) rfl
        have hee : e = (nd.key, nd.value) := by rw [hk.1] at hkv; injection hkv
        subst hee
        simp only [List.head?_cons, SL.forEachLoop, SL.deref, idx_of_get hn, Outcome.ret_bind, sweepOp, sweep]
        cases hb : (f t nd.key nd.value).2 with
        | false =>
          obtain ⟨s2, i2, b1, b2⟩ := ih sl (A ++ [q]) (mA ++ [(nd.key, nd.value)]) mB n (f t nd.key nd.value).1
            (by simpa using h) (by simp [hA, hkv]) hk.2 (by simp at hf; omega)
          refine ⟨s2, i2, ?_, by simpa using b2⟩
          simp [idx_of_get hn, idx_of_get hnx]
          exact b1
        | true =>
          have hp := h.pos_at hl hA hkv hk.2 (key := nd.key) ⟨hl.weak.irrefl _, hl.weak.irrefl _⟩
          obtain ⟨s1, a1, a2, a3, a4, a5⟩ := h.remove_hit hl hp
          rw [SMap.erase_split hp.sp] at a2
          have hg := a4 0
          rw [SL.get_node hn, hnx] at hg
          simp only [SL.get, Option.bind_eq_some_iff] at hg
          obtain ⟨nd1, hn1, hnx1⟩ := hg
          obtain ⟨s2, i2, b1, b2⟩ := ih s1 A mA mB n (f t nd.key nd.value).1 a2
            (by rw [List.map_congr_left (fun x _ => a3 x), hA]) (by rw [List.map_congr_left (fun x _ => a3 x), hk.2])
            (by simp at hf; omega)
          refine ⟨s2, i2, ?_, b2⟩
          simp [a1, idx_of_get hn1, idx_of_get hnx1]
          exact b1

theorem SLInv.sweep (hl : impl.Lawful) (h : SLInv impl.less sl ids m) (f : σ → K → V → σ × Bool) (t : σ) :
    ∃ sl' ids', SL.forEach (sweepOp impl f) (sl, t) = .ret (sl', (Stl4go.sweep f t m).1) ∧
      SLInv impl.less sl' ids' (Stl4go.sweep f t m).2 := by
  simp only [SL.forEach, h.head_get0, Outcome.ret_bind]
  exact sweepLoop_spec hl f ids sl [] [] m _ t h rfl h.kvs (by have := h.count; omega)

/-! ## Pointers -/

theorem split_at {q : Nat} {e : K × V} (hk : ids.map sl.kv = m.map some) (hq : q ∈ ids) (he : sl.kv q = some e) :
    ∃ A B mA mB, ids = A ++ q :: B ∧ m = mA ++ e :: mB ∧ A.map sl.kv = mA.map some ∧ B.map sl.kv = mB.map some := by
  obtain ⟨A, B, rfl⟩ := List.append_of_mem hq
  rw [List.map_append, List.map_cons] at hk
  have hk' := hk.symm
  rw [List.map_eq_append_iff] at hk'
  obtain ⟨mA, r, rfl, h1, h2⟩ := hk'
  cases r with
  | nil => simp at h2
  | cons x mB =>
    simp only [List.map_cons, List.cons.injEq] at h2
    rw [he] at h2
    obtain ⟨h2, h3⟩ := h2
    injection h2 with h2; subst h2
    exact ⟨A, B, mA, mB, rfl, rfl, h1.symm, h3.symm⟩

/-- `Find` returns the node that stores the key. -/
theorem SLInv.find_at (hl : impl.Lawful) (h : SLInv impl.less sl ids m) {q : Nat} {e : K × V} {key : K} (hq : q ∈ ids)
    (he : sl.kv q = some e) (hk : impl.less e.1 key = false ∧ impl.less key e.1 = false) :
    sl.find impl key = .ret (some q) ∧ SMap.find impl.less key m = some e.2 ∧ sl.readPtr q = .ret e.2 := by
  obtain ⟨A, B, mA, mB, rfl, rfl, hA, hB⟩ := split_at h.kvs hq he
  have hp := h.pos_at hl hA he hB hk
  refine ⟨h.findNode hl hp, by rw [SMap.find_split hp.sp]; rfl, ?_⟩
  obtain ⟨n, hn, _, hv⟩ := SL.kv_some he
  simp [SL.readPtr, SL.deref, idx_of_get hn, hv]

theorem SLInv.exec_keeps (hl : impl.Lawful) (h : SLInv impl.less sl ids m) {q : Nat} {e : K × V} {key : K} (hq : q ∈ ids)
    (he : sl.kv q = some e) (hk : impl.less e.1 key = false ∧ impl.less key e.1 = false) (rnd : Nat) (op : SMOp K V)
    (hop : Keeps impl.less key op) :
    ∃ sl' ids' v', sl.exec impl rnd op = .ret (sl', (SMap.step impl.less m op).1) ∧
      SLInv impl.less sl' ids' (SMap.step impl.less m op).2 ∧ q ∈ ids' ∧ sl'.kv q = some (e.1, v') := by
  cases op with
  | insert k v =>
    obtain ⟨iG, iH, iS, G, H, S, p⟩ := h.pos hl k
    rcases p.cases with ⟨rfl, rfl⟩ | ⟨q', e', rfl, rfl, hkv⟩
    · obtain ⟨sl', a1, a2, a3, _⟩ := h.insert_miss hl p rnd v
      have hlt := SL.lvl_lt (h.lvl_pos q hq)
      refine ⟨sl', _, e.2, by simp [SL.exec, a1, SMap.step], a2, ?_, by rw [a3 q (by omega), he]⟩
      have hids : ids = iG ++ iS := by simpa using p.ids_eq
      rw [hids] at hq; exact mem_add hq
    · obtain ⟨sl', a1, a2, a3, a4, _⟩ := h.insert_hit hl p rnd v
      by_cases hqq : q = q'
      · subst hqq
        rw [hkv] at he; injection he with he; subst he
        exact ⟨sl', _, v, by simp [SL.exec, a1, SMap.step], a2, hq, a4⟩
      · exact ⟨sl', _, e.2, by simp [SL.exec, a1, SMap.step], a2, hq, by rw [a3 q hqq, he]⟩
  | remove k =>
    obtain ⟨iG, iH, iS, G, H, S, p⟩ := h.pos hl k
    rcases p.cases with ⟨rfl, rfl⟩ | ⟨q', e', rfl, rfl, hkv⟩
    · obtain ⟨sl', a1, a2, a3, _⟩ := h.remove_miss hl p
      refine ⟨sl', ids, e.2, by simp [SL.exec, a1, SMap.step, SMap.find_split p.sp], ?_, hq, by rw [a3, he]⟩
      simp only [SMap.step, SMap.erase_split p.sp]
      have : m = G ++ S := by simpa using p.sp.eq
      rw [← this]; exact a2
    · obtain ⟨sl', a1, a2, a3, _⟩ := h.remove_hit hl p
      have hne : q ≠ q' := by
        rintro rfl
        rw [hkv] at he; injection he with he; subst he
        have hh := p.sp.hit e' (by simp)
        have h1 := hl.weak.negTrans hh.2 hk.1
        have h2 := hl.weak.negTrans hk.2 hh.1
        simp only [Keeps] at hop
        rcases hop with hop | hop
        · rw [h1] at hop; exact absurd hop (by decide)
        · rw [h2] at hop; exact absurd hop (by decide)
      refine ⟨sl', _, e.2, by simp [SL.exec, a1, SMap.step, SMap.find_split p.sp], a2, ?_, by rw [a3, he]⟩
      have hids : ids = iG ++ q' :: iS := by simpa using p.ids_eq
      rw [hids] at hq; exact mem_mid hq hne
  | clear => exact absurd hop (by simp [Keeps])
  | update k v =>
    obtain ⟨iG, iH, iS, G, H, S, p⟩ := h.pos hl k
    have hf := h.findNode hl p
    rcases p.cases with ⟨rfl, rfl⟩ | ⟨q', e', rfl, rfl, hkv⟩
    · exact ⟨sl, ids, e.2, by simp [SL.exec, SL.find, hf, SMap.step, SMap.find_split p.sp],
        by simpa [SMap.step, SMap.find_split p.sp] using h, hq, he⟩
    · obtain ⟨sl', a1, a2, a3, a4, _⟩ := h.setValue (A := iG) (B := iS) (q := q') (mA := G) (mB := S) (e := e')
        (by rw [p.ids_eq]; rfl) (by rw [p.sp.eq]; rfl) p.kG hkv p.kS v
      have h1 : sl.exec impl rnd (.update k v) = .ret (sl', (SMap.step impl.less m (.update k v)).1) := by
        simp [SL.exec, SL.find, hf, a1, SMap.step, SMap.find_split p.sp]
      have h2 : SLInv impl.less sl' ids (SMap.step impl.less m (.update k v)).2 := by
        simpa [SMap.step, SMap.find_split p.sp, SMap.insert_hit hl.weak p.sp] using a2
      by_cases hqq : q = q'
      · subst hqq
        rw [hkv] at he; injection he with he; subst he
        exact ⟨sl', _, v, h1, h2, hq, a4⟩
      · exact ⟨sl', _, e.2, h1, h2, hq, by rw [a3 q hqq, he]⟩
  | find k =>
    obtain ⟨sl', ids', a1, a2⟩ := h.exec hl rnd (.find k)
    have : sl' = sl := by
      simp only [SL.exec] at a1
      cases hx : sl.find impl k with
      | ret o =>
        rw [hx] at a1
        cases o with
        | none => simp at a1; exact a1.1.symm
        | some p =>
          simp only [Outcome.ret_bind] at a1
          cases hy : sl.readPtr p with
          | ret v => rw [hy] at a1; simp at a1; exact a1.1.symm
          | panic => rw [hy] at a1; simp at a1
          | diverge => rw [hy] at a1; simp at a1
      | panic => rw [hx] at a1; simp at a1
      | diverge => rw [hx] at a1; simp at a1
    subst this
    exact ⟨sl', ids, e.2, a1, h, hq, he⟩
  | has k =>
    obtain ⟨iG, iH, iS, G, H, S, p⟩ := h.pos hl k
    refine ⟨sl, ids, e.2, ?_, h, hq, he⟩
    have hf := h.findNode hl p
    rcases p.cases with ⟨rfl, rfl⟩ | ⟨q, e, rfl, rfl, hkv⟩ <;>
      simp [SL.exec, SL.has, hf, SMap.step, SMap.find_split p.sp]
  | len => exact ⟨sl, ids, e.2, by simp [SL.exec, SL.length, SMap.step, h.len_eq, h.len_m], h, hq, he⟩
  | isEmpty =>
    refine ⟨sl, ids, e.2, ?_, h, hq, he⟩
    have := h.len_m
    simp only [SL.exec, SL.isEmpty, SMap.step, h.len_eq]
    cases m with
    | nil => simp at this; simp [this]
    | cons e m => simp at this; simp [this]; omega
  | iterate =>
    refine ⟨sl, ids, e.2, ?_, h, hq, he⟩
    have := h.observe (A := []) (B := ids) rfl h.kvs
    simp [SL.exec, h.iterate, this, SMap.step]
  | lowerBound k =>
    obtain ⟨iG, iH, iS, G, H, S, p⟩ := h.pos hl k
    refine ⟨sl, ids, e.2, ?_, h, hq, he⟩
    have := h.observe p.ids_eq p.kHS
    simp [-List.head?_append, SL.exec, SL.lowerBoundIter, h.lowerBound hl p, this, SMap.step, SMap.lower_split hl.weak p.sp]
  | upperBound k =>
    obtain ⟨iG, iH, iS, G, H, S, p⟩ := h.pos hl k
    refine ⟨sl, ids, e.2, ?_, h, hq, he⟩
    have := h.observe (A := iG ++ iH) (B := iS) (by rw [p.ids_eq]; simp) p.kS
    simp [SL.exec, SL.upperBoundIter, h.upperBound hl p, this, SMap.step, SMap.upper_split hl.weak p.sp]

theorem SLInv.run_keeps (hl : impl.Lawful) {q : Nat} {key : K} (ops : List (Nat × SMOp K V)) :
    ∀ {sl : SL K V} {ids : List Nat} {m : List (K × V)} {e : K × V}, SLInv impl.less sl ids m → q ∈ ids → sl.kv q = some e →
    (impl.less e.1 key = false ∧ impl.less key e.1 = false) → (∀ o ∈ ops, Keeps impl.less key o.2) →
    ∃ sl' ids' v', SL.run impl sl ops = .ret (sl', (SMap.run impl.less m (opsOf ops)).1) ∧
      SLInv impl.less sl' ids' (SMap.run impl.less m (opsOf ops)).2 ∧ q ∈ ids' ∧ sl'.kv q = some (e.1, v') := by
  induction ops with
  | nil => intro sl ids m e h hq he _ _; exact ⟨sl, ids, e.2, rfl, h, hq, he⟩
  | cons o ops ih =>
    intro sl ids m e h hq he hk hops
    obtain ⟨rnd, op⟩ := o
    obtain ⟨s1, i1, v1, a1, a2, a3, a4⟩ := h.exec_keeps hl hq he hk rnd op (hops (rnd, op) (by simp))
    obtain ⟨s2, i2, v2, b1, b2, b3, b4⟩ := ih a2 a3 a4 hk (fun x hx => hops x (by simp [hx]))
    refine ⟨s2, i2, v2, ?_, b2, b3, b4⟩
    simp only [SL.run, a1, Outcome.ret_bind, b1]
    rfl

theorem run_append (ops1 ops2 : List (SMOp K V)) (less : K → K → Bool) (m : List (K × V)) :
    SMap.run less m (ops1 ++ ops2) =
      ((SMap.run less m ops1).1 ++ (SMap.run less (SMap.run less m ops1).2 ops2).1, (SMap.run less (SMap.run less m ops1).2 ops2).2) := by
  induction ops1 generalizing m with
  | nil => rfl
  | cons o ops ih => simp [SMap.run, ih]

theorem after_append (less : K → K → Bool) (h1 h2 : List (Nat × SMOp K V)) :
    SMap.after less (h1 ++ h2) = (SMap.run less (SMap.after less h1) (opsOf h2)).2 := by
  simp [SMap.after, opsOf, run_append]

end Stl4go
