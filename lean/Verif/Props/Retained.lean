import Verif.Proofs.RetainedSkip
import Verif.Props.DListQueue
/-!
# Properties C131, C132: a container keeps nothing alive but its elements

`/repo/slist.go`, `/repo/dlist.go`, `/repo/dlist_queue.go`, `/repo/skiplist.go`. A node that no pointer chain from the container reaches
can be collected (if the client holds no iterator or pointer).
-/
namespace Stl4go
variable {T K V : Type}

section Lists
variable [GoZero T]

/-- C131, `SList`: after every history each list holds exactly one node for each of its elements, and no other node. -/
theorem C131_slist (h : List (Nat × LOp T)) (i : Nat) :
    ∃ ids : List Nat, ids.Nodup ∧ (∀ p, (LWorld.init.run h).2.Retains i p ↔ p ∈ ids) ∧
      ids.map (LWorld.init.run h).2.at = ((LSeq.run (fun _ => []) h).2 i).map some := by
  obtain ⟨ids, _, hw⟩ := LWInv.run h (LWInv.init (T := T))
  exact ⟨ids i, (hw.inv i).nodup, (hw.inv i).holds, (hw.inv i).vals⟩

/-- C131, `SList`: two lists hold no common node. -/
theorem C131_slist_apart (h : List (Nat × LOp T)) (i j p : Nat) (hi : (LWorld.init.run h).2.Retains i p) (hj : (LWorld.init.run h).2.Retains j p) :
    i = j := by
  obtain ⟨ids, _, hw⟩ := LWInv.run h (LWInv.init (T := T))
  rcases Nat.decEq i j with hne | e
  · exact absurd (((hw.inv j).holds p).1 hj) (hw.disj i j hne p (((hw.inv i).holds p).1 hi))
  · exact e

theorem DInv.foot_mem {l : DL} {ids : List Nat} {p : Nat} : p ∈ foot l ids ↔ l.head = some p ∨ p ∈ ids := by
  simp only [foot, List.mem_append, Option.mem_toList]

/-- C131, `DList`: after every history each list holds exactly one node for each of its elements, and besides at most its sentinel, which
stores the zero value. -/
theorem C131_dlist (h : List (Nat × DOp T)) (i : Nat) :
    ∃ sent ids : List Nat, sent.length ≤ 1 ∧ (sent ++ ids).Nodup ∧ (∀ p, (DWorld.init.run h).2.Retains i p ↔ p ∈ sent ++ ids) ∧
      (∀ p ∈ sent, (DWorld.init.run h).2.at p = some GoZero.zero) ∧
      ids.map (DWorld.init.run h).2.at = ((Deque.run (fun _ => []) h).2 i).map some := by
  obtain ⟨ids, _, hw⟩ := WInv.run h (WInv.init (T := T))
  refine ⟨((DWorld.init.run h).2.vars i).head.toList, ids i, ?_, (hw.inv i).nodup, fun p => ?_, fun p hp => ?_, (hw.inv i).vals⟩
  · cases ((DWorld.init.run h).2.vars i).head <;> simp
  · exact ((hw.inv i).holds p).trans DInv.foot_mem.symm
  · exact DWorld.run_sent h (w := DWorld.init) (by simp [DWorld.init]) i p (Option.mem_toList.1 hp)

/-- C131, `DList`: two lists hold no common node. -/
theorem C131_dlist_apart (h : List (Nat × DOp T)) (i j p : Nat) (hi : (DWorld.init.run h).2.Retains i p) (hj : (DWorld.init.run h).2.Retains j p) :
    i = j := by
  obtain ⟨ids, _, hw⟩ := WInv.run h (WInv.init (T := T))
  rcases Nat.decEq i j with hne | e
  · exact absurd (DInv.foot_mem.2 (((hw.inv j).holds p).1 hj)) (hw.disj i j hne p (DInv.foot_mem.2 (((hw.inv i).holds p).1 hi)))
  · exact e

/-- C131, `DListQueue`: the same for the queues made of `DList`s. -/
theorem C131_dlistqueue (h : List (Nat × QOp T)) (i : Nat) :
    ∃ sent ids : List Nat, sent.length ≤ 1 ∧ (sent ++ ids).Nodup ∧ (∀ p, (DWorld.init.runQ h).2.Retains i p ↔ p ∈ sent ++ ids) ∧
      (∀ p ∈ sent, (DWorld.init.runQ h).2.at p = some GoZero.zero) ∧
      ids.map (DWorld.init.runQ h).2.at = ((Deque.run (fun _ => []) (h.map (fun o => (o.1, o.2.toDeque)))).2 i).map some := by
  rw [DWorld.runQ_eq]; exact C131_dlist _ i

end Lists

/-! ## SkipList -/

/-- C132 as one would like it: after every history the skip list holds exactly one node for each of its entries, and no other node. -/
def C132_statement : Prop :=
  ∀ (K V : Type) (impl : SLImpl K), impl.Lawful → ∀ (h : List (Nat × SMOp K V)) (sl : SL K V), SL.Built impl h sl →
    ∃ ids : List Nat, ids.Nodup ∧ (∀ p, sl.Retains p ↔ p ∈ ids) ∧ ids.map sl.at = (SMap.after impl.less h).map some

/-- Two inserts, then `Clear`. -/
def C132_history : List (Nat × SMOp Int Int) := [(0, .insert 1 10), (0, .insert 2 20), (0, .clear)]

/-- The same, then one more entry is inserted (the random number makes a node of one level). -/
def C132_history2 : List (Nat × SMOp Int Int) := C132_history ++ [(2 ^ 40 - 1, .insert 3 30), (0, .remove 3)]

/-- The skip list after a history, if all went well. -/
def C132_after (h : List (Nat × SMOp Int Int)) : Option (SL Int Int) :=
  match SL.run (.ordered inferInstance) newSkipList h with
  | .ret (sl, _) => some sl
  | _ => none

theorem builtAfter {h : List (Nat × SMOp Int Int)} {sl : SL Int Int} (e : C132_after h = some sl) :
    SL.Built (.ordered inferInstance) h sl := by
  unfold C132_after at e
  split at e
  · next sl' obs e' => injection e with e; subst e; exact ⟨obs, e'⟩
  · cases e

theorem C132_leak : ∃ sl, C132_after C132_history = some sl ∧ sl.Retains 0 ∧ sl.at 0 = some (1, 10) ∧ sl.Retains 1 ∧ sl.at 1 = some (2, 20) ∧
    SMap.after (fun a b : Int => decide (a < b)) C132_history = [] := by
  have key : (C132_after C132_history).any (fun sl => decide (sl.prevsCache[0]? = some (some (.node 0)) ∧ sl.at 0 = some (1, 10) ∧
      (sl.nodes[0]?.map (·.next[0]?)) = some (some (some 1)) ∧ sl.at 1 = some (2, 20))) = true := by decide +kernel
  cases e : C132_after C132_history with
  | none => rw [e] at key; cases key
  | some sl =>
    rw [e] at key
    simp only [Option.any_some, decide_eq_true_eq] at key
    obtain ⟨k1, k2, k3, k4⟩ := key
    simp only [Option.map_eq_some_iff] at k3
    obtain ⟨n, hn, hx⟩ := k3
    have h0 : sl.Retains 0 := .root ⟨0, .inr k1⟩
    exact ⟨sl, rfl, h0, k2, .step h0 ⟨n, 0, hn, hx⟩, k4, by decide +kernel⟩

/-- The statement is false: after two inserts and `Clear` the list is empty, but its cache (and through it a node of the cleared list)
still holds both entries. -/
theorem C132_counterexample : ¬ C132_statement := by
  intro hs
  obtain ⟨sl, e, h0, _, _, _, hm⟩ := C132_leak
  obtain ⟨ids, _, h1, h2⟩ := hs Int Int (.ordered inferInstance) (inferInstance : LawfulGoOrd Int) _ sl (builtAfter e)
  have hm' : SMap.after (SLImpl.ordered (inferInstance : GoOrd Int)).less C132_history = [] := hm
  rw [hm'] at h2
  have : ids = [] := by simpa using h2
  subst this
  exact absurd ((h1 0).1 h0) (by simp)

/-- Inserting and removing entries of one level does not release them either: the upper slots of the cache are not written. -/
theorem C132_leak_stays : ∃ sl, C132_after C132_history2 = some sl ∧ sl.Retains 0 ∧ sl.at 0 = some (1, 10) ∧ sl.Retains 1 ∧ sl.at 1 = some (2, 20) ∧
    SMap.after (fun a b : Int => decide (a < b)) C132_history2 = [] := by
  have key : (C132_after C132_history2).any (fun sl => decide (sl.prevsCache[1]? = some (some (.node 0)) ∧ sl.at 0 = some (1, 10) ∧
      (sl.nodes[0]?.map (·.next[0]?)) = some (some (some 1)) ∧ sl.at 1 = some (2, 20))) = true := by decide +kernel
  cases e : C132_after C132_history2 with
  | none => rw [e] at key; cases key
  | some sl =>
    rw [e] at key
    simp only [Option.any_some, decide_eq_true_eq] at key
    obtain ⟨k1, k2, k3, k4⟩ := key
    simp only [Option.map_eq_some_iff] at k3
    obtain ⟨n, hn, hx⟩ := k3
    have h0 : sl.Retains 0 := .root ⟨1, .inr k1⟩
    exact ⟨sl, rfl, h0, k2, .step h0 ⟨n, 0, hn, hx⟩, k4, by decide +kernel⟩

/-- C132, for histories without `Clear`: the skip list holds exactly one node for each of its entries, and no other node. -/
theorem C132_no_clear_partial {impl : SLImpl K} (hl : impl.Lawful) {h : List (Nat × SMOp K V)} {sl : SL K V} (hb : SL.Built impl h sl)
    (hc : ∀ o ∈ h, o.2 ≠ .clear) :
    ∃ ids : List Nat, ids.Nodup ∧ (∀ p, sl.Retains p ↔ p ∈ ids) ∧ ids.map sl.at = (SMap.after impl.less h).map some := by
  obtain ⟨ids, D, hi, g, hD⟩ := hb.hold hl
  refine ⟨ids, hi.linked.nodup, fun p => ⟨fun hp => ?_, fun hp => SL.holds_of_visits ((hi.visits p).2 hp)⟩, hi.kvs⟩
  rcases g.holds hi hp with h1 | h1
  · exact h1
  · obtain ⟨h1, rnd, h2, _, e, _⟩ := hD p h1
    exact absurd rfl (hc (rnd, .clear) (by rw [e]; simp))

/-- C132, for all histories: the skip list holds one node for each of its entries; every other node it holds was in the list when some
earlier `Clear` was called. -/
theorem C132_partial {impl : SLImpl K} (hl : impl.Lawful) {h : List (Nat × SMOp K V)} {sl : SL K V} (hb : SL.Built impl h sl) :
    ∃ ids : List Nat, ids.Nodup ∧ (∀ p, sl.Visits p ↔ p ∈ ids) ∧ ids.map sl.at = (SMap.after impl.less h).map some ∧ (∀ p ∈ ids, sl.Retains p) ∧
      ∀ p, sl.Retains p → p ∈ ids ∨ ∃ h1 rnd h2 sl1, h = h1 ++ (rnd, .clear) :: h2 ∧ SL.Built impl h1 sl1 ∧ sl1.Visits p := by
  obtain ⟨ids, D, hi, g, hD⟩ := hb.hold hl
  refine ⟨ids, hi.linked.nodup, hi.visits, hi.kvs, fun p hp => SL.holds_of_visits ((hi.visits p).2 hp), fun p hp => ?_⟩
  rcases g.holds hi hp with h1 | h1
  · exact .inl h1
  · exact .inr (hD p h1)

/-- C132: the node of an entry that `Remove` removes is released at once and is never held again, whatever is called before and after. -/
theorem C132_remove_partial {impl : SLImpl K} (hl : impl.Lawful) {h : List (Nat × SMOp K V)} {sl : SL K V} (hb : SL.Built impl h sl)
    {p : Nat} {e : K × V} {k : K} (hp : sl.Visits p) (he : sl.at p = some e) (h1 : impl.less e.1 k = false) (h2 : impl.less k e.1 = false)
    (rnd : Nat) (after : List (Nat × SMOp K V)) :
    ∃ sl' obs, SL.run impl sl ((rnd, .remove k) :: after) = .ret (sl', .flag true :: obs) ∧ ¬ sl'.Retains p := by
  obtain ⟨ids, D, hi, g, _⟩ := hb.hold hl
  have hpi := (hi.visits p).1 hp
  obtain ⟨s1, i1, a1, a2, a3, a4, a5, a6⟩ := g.exec hl hi rnd (.remove k)
  have hlt := SL.lvl_lt (hi.lvl_pos p hpi)
  obtain ⟨iG, iH, iS, G, H, S, ps⟩ := hi.pos hl k
  have hH : p ∈ iH := by
    have hm := hpi
    rw [ps.ids_eq, List.mem_append, List.mem_append] at hm
    rcases hm with hm | hm | hm
    · obtain ⟨e', m1, m2⟩ := mem_kv ps.kG hm
      rw [show sl.kv p = some e from he] at m2
      injection m2 with m2; subst m2
      have := ps.sp.go e m1
      rw [h1] at this; cases this
    · exact hm
    · obtain ⟨e', m1, m2⟩ := mem_kv ps.kS hm
      rw [show sl.kv p = some e from he] at m2
      injection m2 with m2; subst m2
      have := ps.sp.stop e m1
      rw [h2] at this; cases this
  rcases ps.cases with ⟨rfl, rfl⟩ | ⟨q, e', rfl, rfl, hkv⟩
  · simp at hH
  have hq : p = q := by simpa using hH
  subst hq
  obtain ⟨sl', b1, b2, b3, b4, b5, b6⟩ := hi.remove_hit hl ps
  have hs1 : s1 = sl' := by
    simp only [SL.exec, b1, Outcome.ret_bind] at a1
    injection a1 with a1; injection a1 with a1; exact a1.symm
  subst hs1
  have hob : (SMap.step impl.less (SMap.after impl.less h) (.remove k)).1 = .flag true := by
    simp [SMap.step, SMap.find_split ps.sp]
  have hnot : p ∉ i1 := by
    intro hc
    rcases a6 k rfl p hc e (by rw [b3]; exact he) with h | h
    · rw [h1] at h; cases h
    · rw [h2] at h; cases h
  have hnD : ¬ (D p ∨ ((SMOp.remove k : SMOp K V) = .clear ∧ p ∈ ids)) := by
    rintro (hc | ⟨hc, _⟩)
    · exact (g.old p hc).2 hpi
    · cases hc
  obtain ⟨s2, i2, D2, c1, c2, c3, _, c5⟩ := SLHold.run hl after a3 a2
  obtain ⟨d1, d2⟩ := c5 p (Nat.lt_of_lt_of_le hlt a4) hnot hnD
  refine ⟨s2, (SMap.run impl.less (SMap.step impl.less (SMap.after impl.less h) (.remove k)).2 (opsOf after)).1, ?_, fun hh => ?_⟩
  · rw [hob] at a1
    simp only [SL.run, a1, Outcome.ret_bind, c1]
    rfl
  · rcases c3.holds c2 hh with x | x
    · exact d1 x
    · exact d2 x

/-! ## Concrete cases -/

/-- Pushes, a pop and a reversal: `SList` 0 keeps two of the three nodes. -/
example : ∃ ids : List Nat, ids.Nodup ∧ ids.map (LWorld.init.run [(0, .pushBack (1 : Int)), (0, .pushBack 2), (0, .pushFront 3), (0, .popFront), (0, .reverse)]).2.at
    = [some 2, some 1] := by
  obtain ⟨ids, h1, _, h3⟩ := C131_slist [(0, .pushBack (1 : Int)), (0, .pushBack 2), (0, .pushFront 3), (0, .popFront), (0, .reverse)] 0
  exact ⟨ids, h1, h3.trans (by decide)⟩

/-- A history without `Clear`: two inserts and a removal leave one node. -/
example : ∃ sl, C132_after [(0, .insert 1 10), (7, .insert 2 20), (0, .remove 1)] = some sl ∧ ∃ ids : List Nat, (∀ p, sl.Retains p ↔ p ∈ ids) ∧ ids.map sl.at = [some (2, 20)] := by
  cases e : C132_after [(0, .insert 1 10), (7, .insert 2 20), (0, .remove 1)] with
  | none => exact absurd e (by decide +kernel)
  | some sl =>
    obtain ⟨ids, _, h2, h3⟩ := C132_no_clear_partial (impl := .ordered inferInstance) (inferInstance : LawfulGoOrd Int) (builtAfter e) (by simp)
    exact ⟨sl, rfl, ids, h2, h3.trans (by decide +kernel)⟩

/-- A pop and a `Clear` on one `DList`, pushes on another: list 1 keeps its sentinel and one node. -/
example : ∃ sent ids : List Nat, (sent ++ ids).Nodup ∧
    (∀ p, (DWorld.init.run [(0, .pushBack (1 : Int)), (1, .pushBack 2), (1, .pushFront 3), (0, .clear), (1, .popBack)]).2.Retains 1 p ↔ p ∈ sent ++ ids) ∧
    ids.map (DWorld.init.run [(0, .pushBack (1 : Int)), (1, .pushBack 2), (1, .pushFront 3), (0, .clear), (1, .popBack)]).2.at = [some 3] := by
  obtain ⟨sent, ids, _, h1, h2, _, h3⟩ := C131_dlist [(0, .pushBack (1 : Int)), (1, .pushBack 2), (1, .pushFront 3), (0, .clear), (1, .popBack)] 1
  exact ⟨sent, ids, h1, h2, h3.trans (by decide)⟩

/-- Removing key 1 of the list 1, 2 after an earlier `Clear`: its node is released for good. -/
example (after : List (Nat × SMOp Int Int)) : ∃ sl, C132_after (C132_history ++ [(0, .insert 1 11), (0, .insert 2 21)]) = some sl ∧
    ∃ sl' obs, SL.run (.ordered inferInstance) sl ((0, .remove 1) :: after) = .ret (sl', .flag true :: obs) ∧ ¬ sl'.Retains 2 := by
  have key : (C132_after (C132_history ++ [(0, .insert 1 11), (0, .insert 2 21)])).any (fun sl => decide (sl.headNext[0]? = some (some 2) ∧
      sl.at 2 = some (1, 11))) = true := by decide +kernel
  cases e : C132_after (C132_history ++ [(0, .insert 1 11), (0, .insert 2 21)]) with
  | none => rw [e] at key; cases key
  | some sl =>
    rw [e] at key
    simp only [Option.any_some, decide_eq_true_eq] at key
    exact ⟨sl, rfl, C132_remove_partial (impl := .ordered inferInstance) (inferInstance : LawfulGoOrd Int) (builtAfter e) (.root key.1) key.2
      (by decide) (by decide) 0 after⟩

end Stl4go
