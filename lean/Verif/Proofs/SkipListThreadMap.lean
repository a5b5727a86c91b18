import Verif.Proofs.SkipListThreadCalls
import Verif.Proofs.SkipListRange
/-! # Lemmas for C180: one after another, and finite maps -/
namespace Stl4go
variable {K V : Type} {impl : SLImpl K} {sl : SL K V} {ids : List Nat} {m : List (K × V)} {cs : Nat → SGCall K V}

/-- Calls made one after another do what each would do alone at first, if none changes what a later one looks at. -/
theorem serial_alone (sl : SL K V) (r : Nat → SGRet K V) (order : List Nat) (hn : order.Nodup) (ha : ∀ i ∈ order, SGAlone impl sl cs i)
    (hr : ∀ i ∈ order, (((cs i).thread impl sl.nodes.length).run sl).outcome = .ret (r i)) (G : SL K V) (hb : G.blank = sl.blank)
    (hv : ∀ i ∈ order, ∀ p, (cs i).sees impl sl p → G.valAt p = sl.valAt p) :
    ∃ G', SGCall.serial impl cs order G = .ret (order.map r, G') ∧ G'.blank = sl.blank ∧
      (∀ i ∈ order, ∀ p, (cs i).sees impl sl p →
        G'.valAt p = (((cs i).thread impl sl.nodes.length).alone (((cs i).thread impl sl.nodes.length).steps sl) sl).2.valAt p) ∧
      (∀ p, (∀ i ∈ order, ¬ (cs i).changes impl sl p) → G'.valAt p = G.valAt p) := by
  induction order generalizing G with
  | nil => exact ⟨G, rfl, hb, fun i h => absurd h List.not_mem_nil, fun p _ => rfl⟩
  | cons i order ih =>
    have hi := List.mem_cons_self (a := i) (l := order)
    obtain ⟨hni, hn'⟩ := List.nodup_cons.1 hn
    generalize hx : (cs i).thread impl sl.nodes.length = x
    have hw : x.Within sl ((cs i).sees impl sl) ((cs i).changes impl sl) := hx ▸ (cs i).within impl sl
    -- enough steps for both lists
    let N := x.steps sl + x.steps G
    obtain ⟨e1, e2⟩ := hw.alone_agree N (sl := sl) (sl' := G) rfl hb (C := (cs i).sees impl sl) (fun p h => h) (hv i hi)
    obtain ⟨b1, b2⟩ := x.alone_run G N (Nat.le_add_left _ _)
    have o1 := (x.alone_run sl N (Nat.le_add_right _ _)).1
    rw [← e1, b1] at o1
    injection o1 with o1
    have hri := hr i hi
    rw [hx] at hri
    rw [hri] at o1
    obtain ⟨G1, hG⟩ : ∃ G1, x.run G = .ok (r i) G1 := by
      cases h : x.run G with
      | ok a s => rw [h] at o1; injection o1 with o1; exact ⟨s, by rw [o1]⟩
      | panic s => rw [h] at o1; exact nomatch o1
      | diverge => rw [h] at o1; exact nomatch o1
    have hG1 := b2 G1 (.inl ⟨_, hG⟩)
    have hcall : (cs i).call impl G = .ret (r i, G1) := by
      rw [← SGCall.run_thread, blank_length hb, hx, hG]; rfl
    have hb1 : G1.blank = sl.blank := by rw [← hG1, SGThread.alone_blank, hb]
    have spare : ∀ p, ¬ (cs i).changes impl sl p → G1.valAt p = G.valAt p := fun p hp => by rw [← hG1]; exact hw.alone_spares N hb hp
    obtain ⟨G', f1, f2, f3, f4⟩ := ih hn' (fun j hj => ha j (List.mem_cons_of_mem _ hj)) (fun j hj => hr j (List.mem_cons_of_mem _ hj)) G1 hb1
      (fun j hj p hp => (spare p (fun hc => ha j (List.mem_cons_of_mem _ hj) i (fun e => hni (e ▸ hj)) p hc hp)).trans (hv j (List.mem_cons_of_mem _ hj) p hp))
    refine ⟨G', by simp only [SGCall.serial, hcall, Outcome.ret_bind, f1]; rfl, f2, fun j hj p hp => ?_, fun p hp => ?_⟩
    · rcases List.mem_cons.1 hj with rfl | hj
      · rw [f4 p (fun k hk hc => ha j hi k (fun e => hni (e ▸ hk)) p hc hp), ← hG1, e2 p hp, hx, x.alone_enough sl N (Nat.le_add_right _ _)]
      · exact f3 j hj p hp
    · rw [f4 p (fun k hk => hp k (List.mem_cons_of_mem _ hk)), spare p (hp i hi)]

theorem visitAll_record (m l : List (K × V)) : visitAll (fun t k v => t ++ [(k, v)]) l m = l ++ m := by
  induction m generalizing l with
  | nil => simp [visitAll]
  | cons e m ih => simp [visitAll, ih]

theorem updateAll_map (f : K → V → V) (m : List (K × V)) : updateAll (fun (_ : Unit) k v => ((), f k v)) () m = ((), m.map (fun e => (e.1, f e.1 e.2))) := by
  induction m with
  | nil => rfl
  | cons e m ih => simp only [updateAll, ih, List.map_cons]

/-- A call on a list that stores `m` does what `spec` says. -/
theorem SGCall.call_spec (hl : impl.Lawful) (h : SLInv impl.less sl ids m) (c : SGCall K V) :
    ∃ sl', c.call impl sl = .ret ((c.spec impl.less m).1, sl') ∧ SLInv impl.less sl' ids (c.spec impl.less m).2 := by
  have keyAt : ∀ (B : List Nat) (M : List (K × V)), B.map sl.kv = M.map some →
      ((do if (SLIter.mk B.head? none).isNotEnd then do let a ← (SLIter.mk B.head? none).key sl; return (SGRet.key (some a), sl) else return (SGRet.key none, sl) :
        Outcome (SGRet K V × SL K V))) = .ret (.key (M.head?.map (·.1)), sl) := by
    intro B M e
    cases B with
    | nil =>
      cases M with
      | nil => rfl
      | cons y M => exact nomatch e
    | cons p B =>
      cases M with
      | nil => exact nomatch e
      | cons y M =>
        simp only [List.map_cons, List.cons.injEq] at e
        obtain ⟨n, e1, e2, _⟩ := SL.kv_some e.1
        simp [SLIter.isNotEnd, SLIter.key, SLIter.deref, SL.deref, idx, e1, e2]
  cases c with
  | find k =>
    refine ⟨sl, ?_, h⟩
    obtain ⟨iG, iH, iS, G, H, S, p⟩ := h.pos hl k
    simp only [SGCall.call, SGCall.spec]
    rcases p.cases with ⟨rfl, rfl⟩ | ⟨q, e, rfl, rfl, hkv⟩
    · rw [SL.find, h.findNode hl p, SMap.find_split p.sp]; rfl
    · obtain ⟨a1, a2, a3⟩ := h.find_at hl (by rw [p.ids_eq]; simp) hkv (p.sp.hit e (by simp))
      simp only [a1, a2, a3, Outcome.ret_bind]; rfl
  | has k =>
    refine ⟨sl, ?_, h⟩
    obtain ⟨iG, iH, iS, G, H, S, p⟩ := h.pos hl k
    simp only [SGCall.call, SGCall.spec, SL.has, h.findNode hl p, SMap.find_split p.sp]
    rcases p.cases with ⟨rfl, rfl⟩ | ⟨q, e, rfl, rfl, hkv⟩ <;> rfl
  | update k f =>
    obtain ⟨iG, iH, iS, G, H, S, p⟩ := h.pos hl k
    simp only [SGCall.call, SGCall.spec]
    rcases p.cases with ⟨rfl, rfl⟩ | ⟨q, e, rfl, rfl, hkv⟩
    · have hf := SMap.find_split p.sp
      simp only [List.head?_nil, Option.map_none] at hf
      simp only [SL.find, h.findNode hl p, hf, List.head?_nil, Outcome.ret_bind]
      exact ⟨sl, rfl, h⟩
    · obtain ⟨a1, a2, a3⟩ := h.find_at hl (by rw [p.ids_eq]; simp) hkv (p.sp.hit e (by simp))
      obtain ⟨sl', b1, b2, _⟩ := h.setValue (A := iG) (B := iS) (q := q) (mA := G) (mB := S) (e := e)
        (by rw [p.ids_eq]; rfl) (by rw [p.sp.eq]; rfl) p.kG hkv p.kS (f e.2)
      simp only [a1, a2, a3, b1, Outcome.ret_bind]
      exact ⟨sl', rfl, by rw [SMap.insert_hit hl.weak p.sp]; exact b2⟩
  | lowerBound k =>
    refine ⟨sl, ?_, h⟩
    obtain ⟨iG, iH, iS, G, H, S, p⟩ := h.pos hl k
    have := keyAt (iH ++ iS) (H ++ S) (by rw [List.map_append, List.map_append, p.kH, p.kS])
    simp only [SGCall.call, SGCall.spec, SL.lowerBoundIter, h.lowerBound hl p, Outcome.ret_bind, Outcome.pure_eq]
    rw [← List.head?_filter, SMap.lower_split hl.weak p.sp]
    exact this
  | upperBound k =>
    refine ⟨sl, ?_, h⟩
    obtain ⟨iG, iH, iS, G, H, S, p⟩ := h.pos hl k
    have := keyAt iS S p.kS
    simp only [SGCall.call, SGCall.spec, SL.upperBoundIter, h.upperBound hl p, Outcome.ret_bind, Outcome.pure_eq]
    rw [← List.head?_filter, SMap.upper_split hl.weak p.sp]
    exact this
  | len => exact ⟨sl, by simp only [SGCall.call, SGCall.spec, SL.length, h.len_eq, h.len_m], h⟩
  | forEach =>
    refine ⟨sl, ?_, h⟩
    have := h.forEach (fun t k v => t ++ [(k, v)]) (fun s k v => .ret (s.1, s.2 ++ [(k, v)])) (fun _ _ _ => rfl) []
    simp only [SGCall.call, SGCall.spec, this, visitAll_record, Outcome.ret_bind]
    rfl
  | forEachMutable f =>
    obtain ⟨sl', a1, a2⟩ := h.forEachMutable (fun (_ : Unit) k v => ((), f k v)) ()
    rw [updateAll_map] at a2
    refine ⟨sl', ?_, a2⟩
    show (SL.forEachMutable (mutOp (fun (_ : Unit) k v => ((), f k v))) (sl, ()) >>= _) = _
    rw [a1]
    rfl

theorem serial_spec (hl : impl.Lawful) (order : List Nat) (h : SLInv impl.less sl ids m) :
    ∃ rs sl', SGCall.serial impl cs order sl = .ret (rs, sl') ∧ SLInv impl.less sl' ids (order.foldl (fun m i => ((cs i).spec impl.less m).2) m) := by
  induction order generalizing sl m with
  | nil => exact ⟨[], sl, rfl, h⟩
  | cons i order ih =>
    obtain ⟨sl1, a1, a2⟩ := (cs i).call_spec hl h
    obtain ⟨rs, sl', b1, b2⟩ := ih a2
    exact ⟨_ :: rs, sl', by simp only [SGCall.serial, a1, b1, Outcome.ret_bind]; rfl, b2⟩

/-- The key of the node that a search finds. -/
theorem SLInv.find_key (hl : impl.Lawful) (h : SLInv impl.less sl ids m) {k : K} {p : Nat} (hp : sl.find impl k = .ret (some p)) :
    ∃ n, sl.nodes[p]? = some n ∧ impl.less n.key k = false ∧ impl.less k n.key = false := by
  obtain ⟨iG, iH, iS, G, H, S, ps⟩ := h.pos hl k
  rw [SL.find, h.findNode hl ps] at hp
  rcases ps.cases with ⟨rfl, rfl⟩ | ⟨q, e, rfl, rfl, hkv⟩
  · exact nomatch hp
  · injection hp with hp; injection hp with hp; subst hp
    obtain ⟨n, e1, e2, _⟩ := SL.kv_some hkv
    exact ⟨n, e1, by rw [e2]; exact ps.sp.hit e (by simp)⟩

theorem SGApart.alone (hl : impl.Lawful) (h : SLInv impl.less sl ids m) (ha : SGApart impl.less cs) (i : Nat) : SGAlone impl sl cs i := by
  intro j hj p hc hs
  have all : ∀ p, p < sl.nodes.length → ∃ n, sl.nodes[p]? = some n := fun p hp => ⟨sl.nodes[p], List.getElem?_eq_getElem hp⟩
  have hw : ∀ n, sl.nodes[p]? = some n → (cs j).writesTo impl.less n.key := by
    intro n hn
    cases hcj : cs j <;> rw [hcj] at hc <;> try exact hc.elim
    · obtain ⟨n', e, e1⟩ := h.find_key hl hc
      rw [hn] at e; injection e with e; subst e; exact e1
    · trivial
  have hk : ∀ n, sl.nodes[p]? = some n → (cs i).looksAt impl.less n.key := by
    intro n hn
    cases hci : cs i <;> rw [hci] at hs <;> try exact hs.elim
    · obtain ⟨n', e, e1⟩ := h.find_key hl hs
      rw [hn] at e; injection e with e; subst e; exact e1
    · obtain ⟨n', e, e1⟩ := h.find_key hl hs
      rw [hn] at e; injection e with e; subst e; exact e1
    · trivial
    · trivial
  have hex : ∃ n, sl.nodes[p]? = some n := by
    cases hcj : cs j <;> rw [hcj] at hc <;> try exact hc.elim
    · obtain ⟨n', e, _⟩ := h.find_key hl hc; exact ⟨n', e⟩
    · exact all p hc
  obtain ⟨n, hn⟩ := hex
  exact ha j i hj n.key (hw n hn) (hk n hn)

end Stl4go
