import Verif.Proofs.SkipListUpdate
/-! # Skip list: iteration and histories -/
namespace Stl4go
variable {K V : Type}
variable {impl : SLImpl K} {sl : SL K V} {ids : List Nat} {m : List (K × V)} {d : Int}

/-! ## Iteration -/

/-- Iterating from the first node of `B` to the first node of `C` yields the entries of `B`. -/
theorem SLInvD.collect {less : K → K → Bool} (h : SLInvD d less sl ids m) {C : List Nat} (B : List Nat) : ∀ (A : List Nat) (mB : List (K × V)) (fuel : Nat),
    ids = A ++ (B ++ C) → B.map sl.kv = mB.map some → B.length < fuel →
    SLIter.collect sl fuel { node := (B ++ C).head?, stop := C.head? } = .ret mB := by
  induction B with
  | nil =>
    intro A mB fuel _ hk hf
    cases mB with
    | nil =>
      cases fuel with
      | zero => simp at hf
      | succ f => simp [SLIter.collect, SLIter.isNotEnd]
    | cons => simp at hk
  | cons q B ih =>
    intro A mB fuel hids hk hf
    cases mB with
    | nil => simp at hk
    | cons e mB =>
      cases fuel with
      | zero => simp at hf
      | succ f =>
        simp only [List.map_cons, List.cons.injEq] at hk
        obtain ⟨n, hn, hkv, hnx⟩ := h.next_node (q := q) (A := A) (B := B ++ C) (by rw [hids]; simp)
        have hne : (some q : Option Nat) ≠ C.head? := by
          intro hc
          have hq : q ∈ C := List.mem_of_mem_head? hc.symm
          have hnd := h.linked.nodup
          rw [hids, List.cons_append] at hnd
          exact (List.nodup_cons.1 (List.nodup_append.1 hnd).2.1).1 (by simp [hq])
        have hee : e = (n.key, n.value) := by rw [hk.1] at hkv; injection hkv
        have := ih (A ++ [q]) mB f (by rw [hids]; simp) hk.2 (by simp at hf; omega)
        simp [-List.head?_append, SLIter.collect, SLIter.isNotEnd, hne, SLIter.key, SLIter.value, SLIter.moveToNext, SLIter.deref, SL.deref,
          idx_of_get hn, idx_of_get hnx, this, hee]

/-- Iterating towards a stop node that lies before the start runs off the end and dereferences nil. -/
theorem SLInvD.collect_panic {less : K → K → Bool} (h : SLInvD d less sl ids m) {s : Nat} (B : List Nat) : ∀ (A : List Nat) (fuel : Nat),
    ids = A ++ B → s ∉ B → B.length < fuel →
    SLIter.collect sl fuel { node := B.head?, stop := some s } = .panic := by
  induction B with
  | nil =>
    intro A fuel _ _ hf
    cases fuel with
    | zero => simp at hf
    | succ f => simp [SLIter.collect, SLIter.isNotEnd, SLIter.key, SLIter.deref]
  | cons q B ih =>
    intro A fuel hids hs hf
    cases fuel with
    | zero => simp at hf
    | succ f =>
      obtain ⟨n, hn, hkv, hnx⟩ := h.next_node (q := q) (A := A) (B := B) hids
      simp only [List.mem_cons, not_or] at hs
      have hne : q ≠ s := fun e => hs.1 e.symm
      have := ih (A ++ [q]) f (by rw [hids]; simp) hs.2 (by simp at hf; omega)
      simp [SLIter.collect, SLIter.isNotEnd, hne, SLIter.key, SLIter.value, SLIter.moveToNext, SLIter.deref, SL.deref,
        idx_of_get hn, idx_of_get hnx, this]

theorem SLInvD.iterate {less : K → K → Bool} (h : SLInvD d less sl ids m) : sl.iterate = .ret { node := ids.head?, stop := none } := by
  have := h.linked.head_get 0 (by omega)
  rw [h.firstAt_zero (fun _ hq => hq)] at this
  simp only [SL.get] at this
  simp [SL.iterate, idx_of_get this]

theorem SLInvD.observe {less : K → K → Bool} (h : SLInvD d less sl ids m) {A B : List Nat} {mB : List (K × V)} (hids : ids = A ++ B)
    (hk : B.map sl.kv = mB.map some) : sl.observeIter { node := B.head?, stop := none } = .ret mB := by
  have := h.collect (C := []) B A mB (sl.nodes.length + 1) (by simp [hids]) hk (by
    have := h.count; rw [hids, List.length_append] at this; omega)
  simpa [SL.observeIter] using this

/-! ## One operation -/

variable {key : K} {iG iH iS : List Nat} {G H S : List (K × V)}

theorem Pos.kHS (p : Pos impl.less sl ids m key iG iH iS G H S) : (iH ++ iS).map sl.kv = (H ++ S).map some := by
  rw [List.map_append, List.map_append, p.kH, p.kS]

theorem SLInvD.len_m {less : K → K → Bool} (h : SLInvD d less sl ids m) : ids.length = m.length := by
  have := congrArg List.length h.kvs; simpa using this

/-- Every operation behaves as on the finite map and keeps the representation. -/
theorem SLInv.exec (hl : impl.Lawful) (h : SLInv impl.less sl ids m) (rnd : Nat) (op : SMOp K V) :
    ∃ sl' ids', sl.exec impl rnd op = .ret (sl', (SMap.step impl.less m op).1) ∧
      SLInv impl.less sl' ids' (SMap.step impl.less m op).2 := by
  cases op with
  | insert k v =>
    obtain ⟨iG, iH, iS, G, H, S, p⟩ := h.pos hl k
    rcases p.cases with ⟨rfl, rfl⟩ | ⟨q, e, rfl, rfl, hkv⟩
    · obtain ⟨sl', a1, a2, _⟩ := h.insert_miss hl p rnd v
      exact ⟨sl', _, by simp [SL.exec, a1, SMap.step], a2⟩
    · obtain ⟨sl', a1, a2, _⟩ := h.insert_hit hl p rnd v
      exact ⟨sl', _, by simp [SL.exec, a1, SMap.step], a2⟩
  | remove k =>
    obtain ⟨iG, iH, iS, G, H, S, p⟩ := h.pos hl k
    rcases p.cases with ⟨rfl, rfl⟩ | ⟨q, e, rfl, rfl, hkv⟩
    · obtain ⟨sl', a1, a2, _⟩ := h.remove_miss hl p
      refine ⟨sl', ids, by simp [SL.exec, a1, SMap.step, SMap.find_split p.sp], ?_⟩
      simp only [SMap.step, SMap.erase_split p.sp]
      have : m = G ++ S := by simpa using p.sp.eq
      rw [← this]; exact a2
    · obtain ⟨sl', a1, a2, _⟩ := h.remove_hit hl p
      exact ⟨sl', _, by simp [SL.exec, a1, SMap.step, SMap.find_split p.sp], a2⟩
  | clear => exact ⟨sl.clear, [], rfl, h.clear⟩
  | update k v =>
    obtain ⟨iG, iH, iS, G, H, S, p⟩ := h.pos hl k
    have hf := h.findNode hl p
    rcases p.cases with ⟨rfl, rfl⟩ | ⟨q, e, rfl, rfl, hkv⟩
    · exact ⟨sl, ids, by simp [SL.exec, SL.find, hf, SMap.step, SMap.find_split p.sp],
        by simpa [SMap.step, SMap.find_split p.sp] using h⟩
    · obtain ⟨sl', a1, a2, _⟩ := h.setValue (A := iG) (B := iS) (q := q) (mA := G) (mB := S) (e := e)
        (by rw [p.ids_eq]; rfl) (by rw [p.sp.eq]; rfl) p.kG hkv p.kS v
      refine ⟨sl', ids, by simp [SL.exec, SL.find, hf, a1, SMap.step, SMap.find_split p.sp], ?_⟩
      simpa [SMap.step, SMap.find_split p.sp, SMap.insert_hit hl.weak p.sp] using a2
  | find k =>
    obtain ⟨iG, iH, iS, G, H, S, p⟩ := h.pos hl k
    refine ⟨sl, ids, ?_, h⟩
    have hf := h.findNode hl p
    rcases p.cases with ⟨rfl, rfl⟩ | ⟨q, e, rfl, rfl, hkv⟩
    · simp [SL.exec, SL.find, hf, SMap.step, SMap.find_split p.sp]
    · obtain ⟨n, hn, _, hv⟩ := SL.kv_some hkv
      simp [SL.exec, SL.find, hf, SMap.step, SMap.find_split p.sp, SL.readPtr, SL.deref, idx_of_get hn, hv]
  | has k =>
    obtain ⟨iG, iH, iS, G, H, S, p⟩ := h.pos hl k
    refine ⟨sl, ids, ?_, h⟩
    have hf := h.findNode hl p
    rcases p.cases with ⟨rfl, rfl⟩ | ⟨q, e, rfl, rfl, hkv⟩ <;>
      simp [SL.exec, SL.has, hf, SMap.step, SMap.find_split p.sp]
  | len => exact ⟨sl, ids, by simp [SL.exec, SL.length, SMap.step, h.len_eq, h.len_m], h⟩
  | isEmpty =>
    refine ⟨sl, ids, ?_, h⟩
    have := h.len_m
    simp only [SL.exec, SL.isEmpty, SMap.step, h.len_eq]
    cases m with
    | nil => simp at this; simp [this]
    | cons e m => simp at this; simp [this]; omega
  | iterate =>
    refine ⟨sl, ids, ?_, h⟩
    have := h.observe (A := []) (B := ids) rfl h.kvs
    simp [SL.exec, h.iterate, this, SMap.step]
  | lowerBound k =>
    obtain ⟨iG, iH, iS, G, H, S, p⟩ := h.pos hl k
    refine ⟨sl, ids, ?_, h⟩
    have := h.observe p.ids_eq p.kHS
    simp [-List.head?_append, SL.exec, SL.lowerBoundIter, h.lowerBound hl p, this, SMap.step, SMap.lower_split hl.weak p.sp]
  | upperBound k =>
    obtain ⟨iG, iH, iS, G, H, S, p⟩ := h.pos hl k
    refine ⟨sl, ids, ?_, h⟩
    have := h.observe (A := iG ++ iH) (B := iS) (by rw [p.ids_eq]; simp) p.kS
    simp [SL.exec, SL.upperBoundIter, h.upperBound hl p, this, SMap.step, SMap.upper_split hl.weak p.sp]

/-- Every history behaves as on the finite map. -/
theorem SLInv.run (hl : impl.Lawful) (ops : List (Nat × SMOp K V)) : ∀ {sl : SL K V} {ids : List Nat} {m : List (K × V)},
    SLInv impl.less sl ids m →
    ∃ sl' ids', SL.run impl sl ops = .ret (sl', (SMap.run impl.less m (opsOf ops)).1) ∧
      SLInv impl.less sl' ids' (SMap.run impl.less m (opsOf ops)).2 := by
  induction ops with
  | nil => intro sl ids m h; exact ⟨sl, ids, rfl, h⟩
  | cons o ops ih =>
    intro sl ids m h
    obtain ⟨rnd, op⟩ := o
    obtain ⟨s1, i1, a1, a2⟩ := h.exec hl rnd op
    obtain ⟨s2, i2, b1, b2⟩ := ih a2
    refine ⟨s2, i2, ?_, b2⟩
    simp only [SL.run, a1, Outcome.ret_bind, b1]
    rfl

theorem SL.Built.inv (hl : impl.Lawful) {h : List (Nat × SMOp K V)} (hb : SL.Built impl h sl) :
    ∃ ids, SLInv impl.less sl ids (SMap.after impl.less h) := by
  obtain ⟨obs, e⟩ := hb
  obtain ⟨s, ids, a1, a2⟩ := SLInv.run hl h (SLInv.new (V := V) impl.less)
  rw [e] at a1
  injection a1 with a1
  injection a1 with a1 _
  subst a1
  exact ⟨ids, a2⟩

end Stl4go
