import Verif.Proofs.SkipListRange
import Verif.Spec.SortedSet
/-! # SkipListSet refines the sorted set -/
namespace Stl4go
variable {K σ : Type}
variable {less : K → K → Bool} {m : List (K × Unit)}

/-! ## Map with unit values and set -/

theorem SSet.mem_eq (hw : StrictWeak less) (hs : SMap.Sorted less m) (k : K) :
    SSet.mem less k (m.map (·.1)) = (SMap.find less k m).isSome := by
  obtain ⟨G, H, S, sp⟩ := SSplit.exists hw k m hs
  rw [SMap.find_split sp, sp.eq]
  simp only [SSet.mem, List.map_append, List.any_append]
  have h1 : (G.map (·.1)).any (fun x => !less k x && !less x k) = false := by
    rw [List.any_eq_false]; intro x hx
    obtain ⟨e, he, rfl⟩ := List.mem_map.1 hx
    simp [sp.go e he]
  have h3 : (S.map (·.1)).any (fun x => !less k x && !less x k) = false := by
    rw [List.any_eq_false]; intro x hx
    obtain ⟨e, he, rfl⟩ := List.mem_map.1 hx
    simp [sp.stop e he]
  rw [h1, h3]
  rcases sp.cases with rfl | ⟨e, rfl⟩
  · rfl
  · simp [sp.hit e]

theorem SSet.add_eq (hw : StrictWeak less) (hs : SMap.Sorted less m) (k : K) :
    (SMap.insert less k () m).map (·.1) = SSet.add less k (m.map (·.1)) := by
  have hmem := SSet.mem_eq hw hs k
  obtain ⟨G, H, S, sp⟩ := SSplit.exists hw k m hs
  rw [SMap.find_split sp] at hmem
  rcases sp.cases with rfl | ⟨e, rfl⟩
  · have hm := sp.eq
    rw [SMap.insert_miss hw sp, SSet.add, hmem]
    simp only [List.head?_nil, Option.map_none, Option.isSome_none, Bool.false_eq_true, if_false]
    rw [hm]
    simp only [List.nil_append, List.map_append, List.map_cons, List.filter_append]
    have f1 : (G.map (·.1)).filter (fun x => less x k) = G.map (·.1) := by
      apply List.filter_eq_self.2; intro x hx; obtain ⟨e, he, rfl⟩ := List.mem_map.1 hx; exact sp.go e he
    have f2 : (S.map (·.1)).filter (fun x => less x k) = [] := by
      apply List.filter_eq_nil_iff.2; intro x hx; obtain ⟨e, he, rfl⟩ := List.mem_map.1 hx; simp [hw.asymm (sp.stop e he)]
    have f3 : (G.map (·.1)).filter (fun x => less k x) = [] := by
      apply List.filter_eq_nil_iff.2; intro x hx; obtain ⟨e, he, rfl⟩ := List.mem_map.1 hx; simp [hw.asymm (sp.go e he)]
    have f4 : (S.map (·.1)).filter (fun x => less k x) = S.map (·.1) := by
      apply List.filter_eq_self.2; intro x hx; obtain ⟨e, he, rfl⟩ := List.mem_map.1 hx; exact sp.stop e he
    rw [f1, f2, f3, f4]; simp
  · have hm := sp.eq
    rw [SMap.insert_hit hw sp, SSet.add, hmem]
    simp [hm]

theorem SSet.del_eq (k : K) : (SMap.erase less k m).map (·.1) = SSet.del less k (m.map (·.1)) := by
  simp only [SMap.erase, SSet.del, List.filter_map]; rfl

/-! ## Iterators -/

theorem setCollect_eq (s : SLSet K) (fuel : Nat) (it : SLIter) :
    SLIter.setCollect s fuel it = (SLIter.collect s fuel it >>= fun l => .ret (l.map (·.1))) := by
  induction fuel generalizing it with
  | zero => rfl
  | succ n ih =>
    have he : it.setIsNotEnd = it.isNotEnd := rfl
    simp only [SLIter.setCollect, SLIter.collect, he]
    by_cases hc : it.isNotEnd = true
    · rw [if_pos hc, if_pos hc]
      simp only [SLIter.setValue, SLIter.setMoveToNext, SLIter.key, SLIter.value, SLIter.moveToNext, bind_assoc, pure_bind]
      cases it.deref s with
      | ret nd =>
        simp only [Outcome.ret_bind]
        cases idx nd.next 0 with
        | ret p => simp [ih, bind_assoc]
        | panic => rfl
        | diverge => rfl
      | panic => rfl
      | diverge => rfl
    · rw [if_neg hc, if_neg hc]; rfl

theorem SLSet.observe_eq (s : SLSet K) (it : SLIter) :
    SLSet.observeIter s it = (SL.observeIter s it >>= fun l => .ret (l.map (·.1))) := setCollect_eq s _ it

variable {impl : SLImpl K} {s : SLSet K} {ids : List Nat}

theorem SLInv.insert_ret (hl : impl.Lawful) (h : SLInv impl.less s ids m) (rnd : Nat) (k : K) :
    ∃ s' ids', SL.insert impl rnd s k () = .ret s' ∧ SLInv impl.less s' ids' (SMap.insert impl.less k () m) := by
  obtain ⟨s', ids', a1, a2⟩ := h.exec hl rnd (.insert k ())
  refine ⟨s', ids', ?_, a2⟩
  simp only [SL.exec] at a1
  cases hx : SL.insert impl rnd s k () with
  | ret y => rw [hx] at a1; simp at a1; rw [a1.1]
  | panic => rw [hx] at a1; cases a1
  | diverge => rw [hx] at a1; cases a1

theorem SLInv.remove_ret (hl : impl.Lawful) (h : SLInv impl.less s ids m) (k : K) :
    ∃ s' ids', SL.remove impl s k = .ret (s', (SMap.find impl.less k m).isSome) ∧
      SLInv impl.less s' ids' (SMap.erase impl.less k m) := by
  obtain ⟨s', ids', a1, a2⟩ := h.exec hl 0 (.remove k)
  refine ⟨s', ids', ?_, a2⟩
  simp only [SL.exec] at a1
  cases hx : SL.remove impl s k with
  | ret y => rw [hx] at a1; simp [SMap.step] at a1; rw [← a1.1, ← a1.2]
  | panic => rw [hx] at a1; cases a1
  | diverge => rw [hx] at a1; cases a1

theorem SLInv.length_set (h : SLInv impl.less s ids m) : SLSet.length s = (m.map (·.1)).length := by
  rw [SLSet.length, SL.length, h.len_eq, h.len_m, List.length_map]

theorem SLInv.set_insert (hl : impl.Lawful) (h : SLInv impl.less s ids m) (rnd : Nat) (k : K) :
    ∃ s' ids', SLSet.insert impl rnd s k = .ret (s', !SSet.mem impl.less k (m.map (·.1))) ∧
      SLInv impl.less s' ids' (SMap.insert impl.less k () m) := by
  obtain ⟨s', ids', a1, a2⟩ := h.insert_ret hl rnd k
  refine ⟨s', ids', ?_, a2⟩
  simp only [SLSet.insert, a1, Outcome.ret_bind, Outcome.pure_eq, h.length_set, a2.length_set, SSet.mem_eq hl.weak h.sorted]
  simp only [List.length_map, SMap.length_insert hl.weak h.sorted]
  cases (SMap.find impl.less k m).isSome <;> simp
  omega

theorem SLInv.insertN (hl : impl.Lawful) (ks : List (Nat × K)) : ∀ {s : SLSet K} {ids : List Nat} {m : List (K × Unit)},
    SLInv impl.less s ids m → ∃ s' ids' m', SLSet.insertNLoop impl ks s = .ret s' ∧ SLInv impl.less s' ids' m' ∧
      m'.map (·.1) = (SSet.addN impl.less (ks.map (·.2)) (m.map (·.1))).1 ∧
      m'.length = m.length + (SSet.addN impl.less (ks.map (·.2)) (m.map (·.1))).2 := by
  induction ks with
  | nil => intro s ids m h; exact ⟨s, ids, m, rfl, h, rfl, rfl⟩
  | cons x ks ih =>
    intro s ids m h
    obtain ⟨rnd, k⟩ := x
    obtain ⟨s1, i1, a1, a2⟩ := h.set_insert hl rnd k
    obtain ⟨s2, i2, m2, b1, b2, b3, b4⟩ := ih a2
    refine ⟨s2, i2, m2, by simp [SLSet.insertNLoop, a1, b1], b2, ?_, ?_⟩
    · rw [b3, SSet.add_eq hl.weak h.sorted]; rfl
    · rw [b4, SMap.length_insert hl.weak h.sorted, SSet.add_eq hl.weak h.sorted, ← SSet.mem_eq hl.weak h.sorted]
      simp only [List.map_cons, SSet.addN]
      cases SSet.mem impl.less k (m.map (·.1)) <;> simp <;> omega

theorem SLInv.removeN (hl : impl.Lawful) (ks : List K) : ∀ {s : SLSet K} {ids : List Nat} {m : List (K × Unit)},
    SLInv impl.less s ids m → ∃ s' ids' m', SLSet.removeNLoop impl ks s = .ret s' ∧ SLInv impl.less s' ids' m' ∧
      m'.map (·.1) = (SSet.delN impl.less ks (m.map (·.1))).1 ∧
      m.length = m'.length + (SSet.delN impl.less ks (m.map (·.1))).2 := by
  induction ks with
  | nil => intro s ids m h; exact ⟨s, ids, m, rfl, h, rfl, rfl⟩
  | cons k ks ih =>
    intro s ids m h
    obtain ⟨s1, i1, a1, a2⟩ := h.remove_ret hl k
    obtain ⟨s2, i2, m2, b1, b2, b3, b4⟩ := ih a2
    refine ⟨s2, i2, m2, by simp [SLSet.removeNLoop, SLSet.remove, a1, b1], b2, ?_, ?_⟩
    · rw [b3, SSet.del_eq]; rfl
    · have hlen := SMap.length_erase hl.weak h.sorted k
      rw [b4, SSet.del_eq, ← SSet.mem_eq hl.weak h.sorted] at hlen
      simp only [SSet.delN]
      have hpos : SSet.mem impl.less k (m.map (·.1)) = true → 0 < m.length := by
        cases m with
        | nil => intro hc; simp [SSet.mem] at hc
        | cons => simp
      cases hc : SSet.mem impl.less k (m.map (·.1)) with
      | false => rw [hc] at hlen; simp at hlen ⊢; omega
      | true => rw [hc] at hlen; have := hpos hc; simp at hlen ⊢; omega

theorem visitAll_keys (f : σ → K → σ) (t : σ) (m : List (K × Unit)) :
    visitAll (fun t k _ => f t k) t m = (m.map (·.1)).foldl f t := by
  induction m generalizing t with
  | nil => rfl
  | cons e m ih => simp [visitAll, ih]

theorem foldl_record (l t : List K) : l.foldl (fun t k => t ++ [k]) t = t ++ l := by
  induction l generalizing t with
  | nil => simp
  | cons k l ih => simp [ih]

theorem SLInv.keys (h : SLInv impl.less s ids m) : SLSet.keys s = .ret (m.map (·.1)) := by
  have := h.forEach (fun (t : List K) k (_ : Unit) => t ++ [k]) (fun s k _ => .ret (s.1, s.2 ++ [k])) (fun _ _ _ => rfl) []
  rw [visitAll_keys, foldl_record, List.nil_append] at this
  simp only [SLSet.keys, h.length_set, SLSet.forEach, this, Outcome.ret_bind, Outcome.pure_eq]
  rw [if_neg (by omega)]

theorem SLInv.set_exec (hl : impl.Lawful) (h : SLInv impl.less s ids m) (op : SSOp K) :
    ∃ s' ids' m', SLSet.exec impl s op = .ret (s', (SSet.step impl.less (m.map (·.1)) op).1) ∧ SLInv impl.less s' ids' m' ∧
      m'.map (·.1) = (SSet.step impl.less (m.map (·.1)) op).2 := by
  have hw := hl.weak
  cases op with
  | insert rnd k =>
    obtain ⟨s', ids', a1, a2⟩ := h.set_insert hl rnd k
    exact ⟨s', ids', _, by simp [SLSet.exec, a1, SSet.step], a2, SSet.add_eq hw h.sorted k⟩
  | insertN ks =>
    obtain ⟨s', ids', m', a1, a2, a3, a4⟩ := SLInv.insertN hl ks h
    refine ⟨s', ids', m', ?_, a2, a3⟩
    simp only [SLSet.exec, SLSet.insertN, a1, Outcome.ret_bind, Outcome.pure_eq, h.length_set, a2.length_set, SSet.step, List.length_map, a4]
    congr 3; push_cast; omega
  | remove k =>
    obtain ⟨s', ids', a1, a2⟩ := h.remove_ret hl k
    refine ⟨s', ids', _, ?_, a2, SSet.del_eq k⟩
    simp [SLSet.exec, SLSet.remove, a1, SSet.step, SSet.mem_eq hw h.sorted]
  | removeN ks =>
    obtain ⟨s', ids', m', a1, a2, a3, a4⟩ := SLInv.removeN hl ks h
    refine ⟨s', ids', m', ?_, a2, a3⟩
    simp only [SLSet.exec, SLSet.removeN, a1, Outcome.ret_bind, Outcome.pure_eq, h.length_set, a2.length_set, SSet.step, List.length_map, a4]
    congr 3; push_cast; omega
  | clear => exact ⟨_, _, _, rfl, h.clear, rfl⟩
  | has k =>
    obtain ⟨iG, iH, iS, G, H, S, p⟩ := h.pos hl k
    refine ⟨s, ids, m, ?_, h, rfl⟩
    have hf := h.findNode hl p
    simp only [SLSet.exec, SLSet.has, SL.has, hf, SSet.step, SSet.mem_eq hw h.sorted, SMap.find_split p.sp]
    rcases p.cases with ⟨rfl, rfl⟩ | ⟨q, e, rfl, rfl, hkv⟩ <;> simp
  | len => exact ⟨s, ids, m, by simp only [SLSet.exec, h.length_set]; rfl, h, rfl⟩
  | isEmpty =>
    refine ⟨s, ids, m, ?_, h, rfl⟩
    have := h.len_m
    simp only [SLSet.exec, SLSet.isEmpty, SL.isEmpty, SSet.step, h.len_eq, this]
    cases m with
    | nil => simp
    | cons e m => simp; omega
  | keys => exact ⟨s, ids, m, by simp [SLSet.exec, h.keys, SSet.step], h, rfl⟩
  | lowerBound k =>
    obtain ⟨iG, iH, iS, G, H, S, p⟩ := h.pos hl k
    refine ⟨s, ids, m, ?_, h, rfl⟩
    have := h.observe p.ids_eq p.kHS
    have h2 := SMap.lower_split hw p.sp
    simp only [SLSet.exec, SLSet.lowerBoundIter, h.lowerBound hl p, Outcome.ret_bind, Outcome.pure_eq, SLSet.observe_eq, this, SSet.step,
      List.filter_map, ← h2]
    rfl
  | upperBound k =>
    obtain ⟨iG, iH, iS, G, H, S, p⟩ := h.pos hl k
    refine ⟨s, ids, m, ?_, h, rfl⟩
    have := h.observe (A := iG ++ iH) (B := iS) (by rw [p.ids_eq]; simp) p.kS
    have h2 := SMap.upper_split hw p.sp
    simp only [SLSet.exec, SLSet.upperBoundIter, h.upperBound hl p, Outcome.ret_bind, Outcome.pure_eq, SLSet.observe_eq, this, SSet.step,
      List.filter_map, ← h2]
    rfl

theorem SLInv.set_run (hl : impl.Lawful) (ops : List (SSOp K)) : ∀ {s : SLSet K} {ids : List Nat} {m : List (K × Unit)},
    SLInv impl.less s ids m → ∃ s' ids' m', SLSet.run impl s ops = .ret (s', (SSet.run impl.less (m.map (·.1)) ops).1) ∧
      SLInv impl.less s' ids' m' ∧ m'.map (·.1) = (SSet.run impl.less (m.map (·.1)) ops).2 := by
  induction ops with
  | nil => intro s ids m h; exact ⟨s, ids, m, rfl, h, rfl⟩
  | cons op ops ih =>
    intro s ids m h
    obtain ⟨s1, i1, m1, a1, a2, a3⟩ := h.set_exec hl op
    obtain ⟨s2, i2, m2, b1, b2, b3⟩ := ih a2
    rw [a3] at b1 b3
    exact ⟨s2, i2, m2, by simp [SLSet.run, a1, b1, SSet.run], b2, b3⟩

theorem SLSet.Built.inv (hl : impl.Lawful) {h : List (SSOp K)} (hb : SLSet.Built impl h s) :
    ∃ ids m, SLInv impl.less s ids m ∧ m.map (·.1) = (SSet.run impl.less [] h).2 := by
  obtain ⟨obs, e⟩ := hb
  obtain ⟨s', ids', m', a1, a2, a3⟩ := SLInv.set_run hl h (SLInv.new (V := Unit) impl.less)
  rw [show (newSkipList : SL K Unit) = newSkipListSet from rfl, e] at a1
  injection a1 with a1; injection a1 with a1 _
  subst a1
  exact ⟨ids', m', a2, a3⟩

theorem SLInv.keys_sorted (h : SLInv impl.less s ids m) : SSet.Sorted impl.less (m.map (·.1)) := by
  have := h.sorted
  unfold SMap.Sorted at this
  unfold SSet.Sorted
  rw [List.pairwise_map]; exact this

end Stl4go
