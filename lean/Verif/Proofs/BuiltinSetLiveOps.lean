import Verif.Proofs.BuiltinSetLive
/-! # The operations on sets under Go's rules for loops over maps -/
namespace Stl4go
variable {K σ α : Type} [GoEq K]

/-- The maps list the sets. -/
def LRel (w : LiveWorld K) (st : BState K) : Prop := BRel w.forget st ∧ w.Good

theorem LRel.of {w : LiveWorld K} {st : BState K} (h : LRel w st) (r : MRef) : Lists (st.of r) ((w.entries r).map (·.key)) := by
  rw [← w.keysOf_forget]
  exact h.1.of r

theorem LRel.any {w : LiveWorld K} {st : BState K} (h : LRel w st) (r : MRef) (k : K) : (w.entries r).any (fun e => GoEq.eq k e.key) = st.of r k := by
  rw [← (h.of r).any, List.any_map]
  rfl

theorem LRel.steps {w : LiveWorld K} {st : BState K} (h : LRel w st) (n : Nat) : LRel { w with steps := n } st := ⟨h.1, h.2.steps n⟩

/-- What an operation that returns does. -/
def LDone [LawfulGoEq K] (w : LiveWorld K) (st : BState K) (op : BOp K) (o : BObs K) (w' : LiveWorld K) : Prop :=
  st.Ok op o ∧ LRel w' (st.step op) ∧ (Grows w w' ∨ Shrinks w w')

variable [LawfulGoEq K]

theorem LDone.look {w : LiveWorld K} {st : BState K} (h : LRel w st) {op : BOp K} {o : BObs K} (n : Nat) (ho : st.Ok op o) (hs : st.step op = st) :
    LDone w st op o { w with steps := n } := ⟨ho, by rw [hs]; exact h.steps n, .inl ((Grows.refl h.2).steps n)⟩

omit [GoEq K] [LawfulGoEq K] in
/-- Loops that look whether all keys satisfy a condition. -/
theorem allLoop (rt : LiveRt K) (extra : Nat) (s : MRef) (q : K → Bool) (body : Bool → K → GoM (LiveWorld K) (Bool × Bool)) (w : LiveWorld K) (hw : w.Good)
    (hbody : ∀ n t k, body t k { w with steps := n } = .ok (if q k then (true, true) else (false, false)) { w with steps := n }) :
    ∃ n, Live.range rt extra s body true w = .ok (((w.entries s).map Entry.key).all q) { w with steps := n } := by
  obtain ⟨r, n, e, h⟩ := lookLoop rt extra s body true w hw (fun d t => t = true ∧ d.all q = true)
    (fun t => t = false ∧ ((w.entries s).map Entry.key).all q = false) ⟨rfl, rfl⟩ (by
      rintro n d t e ⟨-, hd⟩ he
      refine ⟨_, hbody n t e.key, ?_⟩
      by_cases hq : q e.key = true
      · rw [if_pos hq]
        simp [hd, hq]
      · rw [if_neg hq]
        simp only [Bool.false_eq_true, if_false, true_and]
        rw [← Bool.not_eq_true, List.all_eq_true]
        exact fun hall => hq (hall e.key (List.mem_map.2 ⟨e, he, rfl⟩)))
  refine ⟨n, ?_⟩
  rw [e]
  rcases h with ⟨d, hd, rfl, ha⟩ | ⟨rfl, ha⟩
  · rw [← hd.all_eq, ha]
  · rw [ha]

omit [LawfulGoEq K] in
theorem updateNil (rt : LiveRt K) (extra : Nat) (s : MRef) (w : LiveWorld K) (hw : w.Good) :
    Live.update rt extra none s w = if (w.entries s).length = 0 then .ok () { w with steps := w.steps + 1 } else .panic { w with steps := w.steps + 1 } := by
  unfold Live.update Live.range
  rcases nextEntry_cases rt s w.ids [] w with ⟨e, en, he, _⟩ | ⟨en, hf⟩
  · rw [if_neg (by intro h0; rw [List.length_eq_zero_iff] at h0; rw [h0] at he; cases he)]
    simp only [Live.rangeLoop, GoM.bind_def, en, Live.set, GoM.panic]
  · have h0 : w.entries s = [] := by
      cases hs : w.entries s with
      | nil => rfl
      | cons x l =>
        have hx : x ∈ w.entries s := by rw [hs]; exact List.mem_cons_self
        have h1 := hf x hx (by simp)
        cases s with
        | none => cases hx
        | some j => have := hw.below j x hx; omega
    rw [if_pos (by rw [h0]; rfl)]
    simp only [Live.rangeLoop, GoM.bind_def, en, GoM.pure_apply]

theorem subset_live (rt : LiveRt K) (extra : Nat) (w : LiveWorld K) (st : BState K) (h : LRel w st) (s o : MRef) :
    ∃ b n, Live.isSubsetOf rt extra s o w = .ok b { w with steps := n } ∧ (b = true ↔ ∀ k, st.of s k = true → st.of o k = true) := by
  by_cases hlt : ((w.entries s).length : Int) > (w.entries o).length
  · refine ⟨false, w.steps, by simp only [Live.isSubsetOf, GoM.bind_def, Live.len, Live.count, if_pos hlt, GoM.pure_apply], ?_⟩
    refine ⟨fun hf => (Bool.false_ne_true hf).elim, fun hs => ?_⟩
    have := (h.of s).length_le (h.of o) hs
    simp only [List.length_map] at this
    omega
  · obtain ⟨n, e⟩ := allLoop rt extra s (st.of o) (fun _ k => do
        let h ← Live.has o k
        if !h then return (false, false) else return (true, true)) w h.2 (by
      intro n t k
      have := (h.steps n).any o k
      simp only [GoM.bind_def, Live.has, Live.contains, this]
      cases st.of o k <;> rfl)
    refine ⟨_, n, by simp only [Live.isSubsetOf, GoM.bind_def, Live.len, Live.count, if_neg hlt, e]; rfl, ?_⟩
    exact all_lists (h.of s) _ (fun a b hab => (h.of o).congr hab)

theorem BOp.live_ok (rt : LiveRt K) (extra : Nat) (op : BOp K) (w : LiveWorld K) (st : BState K) (h : LRel w st) (hv : op.Valid st.next) :
    (∃ o w', op.live rt extra w = .ok o w' ∧ o ≠ .panicked ∧ LDone w st op o w') ∨ (∃ w', op.live rt extra w = .panic w' ∧ LDone w st op .panicked w') := by
  have hn : w.next = st.next := h.1.1
  have hp : ∀ i, ((w.maps i).map (·.key)).Pairwise (fun x y => GoEq.eq x y = false) := fun i => (h.1.2 i).1
  have gm := h.2.make
  have hin : w.next < w.made.next := Nat.lt_succ_self _
  have hpm : ((w.made.maps w.next).map Entry.key).Pairwise (fun x y => GoEq.eq x y = false) := by rw [h.2.made_maps]; exact hp _
  have hme : w.made.maps w.next = [] := by rw [h.2.made_maps]; exact h.2.unmade _ (Nat.le_refl _)
  cases op with
  | setOf ks =>
    obtain ⟨w', e, g, p⟩ := setAll_live rt w.next ks w.made gm.1.good hin
    refine .inl ⟨.ref (some w.next), w', ?_, by simp, by simp [BState.Ok, hn], ⟨p.relNew h.2 h.1 ?_, g.1.good⟩, .inl (gm.trans g)⟩
    · unfold LiveWorld.made at e
      simp only [BOp.live, Live.setOf, Live.insertN, Live.make, Live.count, GoM.bind_def, e, GoM.pure_apply]
    · rw [hme]
      exact Lists.fill _ _ (fun x => rfl)
  | isEmpty r =>
    refine .inl ⟨_, { w with steps := w.steps }, rfl, by simp, .look h w.steps ⟨_, rfl, ?_⟩ rfl⟩
    rw [decide_eq_true_iff, ← (h.of r).empty_iff, List.length_map]
    omega
  | len r => exact .inl ⟨_, { w with steps := w.steps }, rfl, by simp, .look h w.steps ⟨_, rfl, _, h.of r, by simp⟩ rfl⟩
  | clear r =>
    cases r with
    | none =>
      refine .inl ⟨.unit, { w with steps := w.steps + 1 }, ?_, by simp, .look h _ rfl rfl⟩
      simp [BOp.live, Live.clear, Live.range, Live.rangeLoop, Live.nextEntry, LiveWorld.entries, GoM.bind_def]
    | some i =>
      obtain ⟨w', e, g, p⟩ := clearLoop rt extra i w h.2 (hp i)
      exact .inl ⟨.unit, w', by simp only [BOp.live, GoM.bind_def, e, GoM.pure_apply], by simp, rfl, ⟨p.rel h.1 Lists.nil, g.1.good⟩, .inr g⟩
  | has r k => exact .inl ⟨_, { w with steps := w.steps }, rfl, by simp, .look h w.steps (by simp only [BState.Ok, h.any]) rfl⟩
  | insert r k =>
    cases r with
    | none => exact .inr ⟨w, rfl, rfl, h, .inl (.refl h.2)⟩
    | some i =>
      have ha := (h.1.2 i).assign rt.replace k
      have p := LPut.assign rt.replace w i k
      have g := h.2.assign rt.replace i (by rw [hn]; exact hv) k
      refine .inl ⟨_, _, rfl, by simp, ?_, ⟨p.rel h.1 ha.1, g.1.good⟩, .inl g⟩
      simp only [BState.Ok, BState.of]
      have l1 : ((w.assign rt.replace i k).entries (some i)).length = (assignKey rt.replace (w.forget.maps i) k).length := by
        have := congrArg List.length p.keys
        rwa [List.length_map] at this
      have l2 : (w.entries (some i)).length = (w.forget.maps i).length := by simp [LiveWorld.forget, LiveWorld.entries]
      rw [l1, l2, ha.2]
      cases st.mem i k
      · simp only [Bool.false_eq_true, if_false, Bool.not_false, BObs.flag.injEq, decide_eq_true_eq]
        omega
      · simp
  | insertN r ks =>
    cases r with
    | none =>
      cases ks with
      | nil => exact .inl ⟨_, { w with steps := w.steps }, rfl, by simp, .look h w.steps (by simp [BState.Ok, LiveWorld.entries]) rfl⟩
      | cons k ks => exact .inr ⟨w, rfl, by simp [BState.Ok], h, .inl (.refl h.2)⟩
    | some i =>
      have ha := Lists.assignAll rt.replace ks (h.1.2 i)
      obtain ⟨w', e, g, p⟩ := setAll_live rt i ks w h.2 (by rw [hn]; exact hv)
      refine .inl ⟨_, w', by simp only [BOp.live, Live.insertN, Live.count, GoM.bind_def, e, GoM.pure_apply]; rfl, by simp, ?_, ⟨p.rel h.1 ha, g.1.good⟩, .inl g⟩
      simp only [BState.Ok]
      refine ⟨_, _, ⟨_, h.1.2 i, rfl⟩, ⟨_, by simpa [BState.step, BState.change, BState.of] using ha, rfl⟩, ?_⟩
      have := congrArg List.length p.keys
      rw [List.length_map] at this
      simp only [LiveWorld.entries]
      rw [this]
      simp [LiveWorld.forget]
  | remove r k =>
    cases r with
    | none => exact .inl ⟨_, { w with steps := w.steps }, rfl, by simp, .look h w.steps (by simp [BState.Ok, LiveWorld.entries, BState.of]) rfl⟩
    | some i =>
      have p := LPut.delete w i k
      have g := h.2.delete i k
      exact .inl ⟨_, _, rfl, by simp, by simp only [BState.Ok, h.any], ⟨p.rel h.1 ((h.1.2 i).delete k), g.1.good⟩, .inr g⟩
  | delete r k =>
    cases r with
    | none => exact .inl ⟨.unit, w, rfl, by simp, rfl, h, .inl (.refl h.2)⟩
    | some i =>
      have p := LPut.delete w i k
      have g := h.2.delete i k
      exact .inl ⟨.unit, _, rfl, by simp, rfl, ⟨p.rel h.1 ((h.1.2 i).delete k), g.1.good⟩, .inr g⟩
  | removeN r ks =>
    cases r with
    | none =>
      refine .inl ⟨_, { w with steps := w.steps }, by simp only [BOp.live, Live.removeN, Live.count, GoM.bind_def, delAll_live_nil, GoM.pure_apply]; rfl, by simp, .look h w.steps ?_ rfl⟩
      exact ⟨0, 0, ⟨[], Lists.nil, rfl⟩, ⟨[], Lists.nil, rfl⟩, by simp [LiveWorld.entries]⟩
    | some i =>
      have ha := Lists.deleteAll ks (h.1.2 i)
      obtain ⟨w', e, g, p⟩ := delAll_live i ks w h.2
      refine .inl ⟨_, w', by simp only [BOp.live, Live.removeN, Live.count, GoM.bind_def, e, GoM.pure_apply]; rfl, by simp, ?_, ⟨p.rel h.1 ha, g.1.good⟩, .inr g⟩
      simp only [BState.Ok]
      refine ⟨_, _, ⟨_, h.1.2 i, rfl⟩, ⟨_, by simpa [BState.step, BState.change, BState.of] using ha, rfl⟩, ?_⟩
      have := congrArg List.length p.keys
      rw [List.length_map] at this
      simp only [LiveWorld.entries]
      rw [this]
      simp [LiveWorld.forget]
  | keys r =>
    obtain ⟨l, n, e, hl⟩ := lookLoop rt extra r (fun keys k => pure (keys ++ [k], true)) [] w h.2 (fun d t => t = d) (fun _ => False) rfl
      (by rintro n d t e rfl _; exact ⟨_, rfl, by simp⟩)
    rcases hl with ⟨d, hd, rfl⟩ | hF
    · exact .inl ⟨.keys l, _, by simp only [BOp.live, Live.keys, GoM.bind_def, e, GoM.pure_apply], by simp, .look h n ⟨l, rfl, (h.of r).perm hd⟩ rfl⟩
    · exact hF.elim
  | update r o =>
    cases r with
    | none =>
      by_cases h0 : (w.entries o).length = 0
      · refine .inl ⟨.unit, { w with steps := w.steps + 1 }, by simp only [BOp.live, GoM.bind_def, updateNil _ _ _ _ h.2, if_pos h0, GoM.pure_apply], by simp, .look h _ ?_ rfl⟩
        refine ⟨fun _ => rfl, ?_⟩
        rintro ⟨k, hk⟩
        rw [(h.of o).empty_iff.1 (by rw [List.length_map]; exact h0) k] at hk
        cases hk
      · refine .inr ⟨{ w with steps := w.steps + 1 }, by simp only [BOp.live, GoM.bind_def, updateNil _ _ _ _ h.2, if_neg h0], .look h _ ?_ rfl⟩
        refine ⟨fun hz => ?_, fun _ => rfl⟩
        have := (h.of o).empty_iff.2 hz
        rw [List.length_map] at this
        exact absurd this h0
    | some i =>
      obtain ⟨w', e, g, ks, hks, p⟩ := addLoop rt extra o i (fun _ => true) (fun _ k => do Live.set rt (some i) k; return ((), true)) w h.2
        (by rw [hn]; exact hv.1) (hp i) (fun w' k _ => rfl)
      refine .inl ⟨.unit, w', by simp only [BOp.live, Live.update, GoM.bind_def, e, GoM.pure_apply], by simp, rfl, ⟨p.rel h.1 ?_, g.1.good⟩, .inl g⟩
      rw [List.filter_eq_self.2 (by simp)]
      have := Lists.assignAll rt.replace ks (h.1.2 i)
      simp only [((h.of o).perm hks).any] at this
      exact this
  | union r o =>
    obtain ⟨hr, ho⟩ := hv
    rw [← hn] at hr ho
    obtain ⟨w1, e1, g1, ks1, hks1, p1⟩ := addLoop rt extra r w.next (fun _ => true) (fun _ k => do Live.set rt (some w.next) k; return ((), true)) w.made gm.1.good
        hin hpm (fun w' k _ => rfl)
    rw [List.filter_eq_self.2 (by simp)] at p1
    have hl1 := Lists.assignAll rt.replace ks1 (Lists.nil (K := K))
    obtain ⟨w2, e2, g2, ks2, hks2, p2⟩ := addLoop rt extra o w.next (fun _ => true) (fun _ k => do Live.set rt (some w.next) k; return ((), true)) w1 g1.1.good
        (by rw [p1.next]; exact hin) (by rw [p1.keys, hme]; exact hl1.1) (fun w' k _ => rfl)
    rw [List.filter_eq_self.2 (by simp), p1.keys, ← List.foldl_append, hme] at p2
    rw [h.2.made_entries] at hks1
    rw [p1.entries o ho.ne, h.2.made_entries] at hks2
    refine .inl ⟨.ref (some w.next), w2, ?_, by simp, by simp [BState.Ok, hn], ⟨(p1.trans p2).relNew h.2 h.1 (Lists.fill _ _ fun x => ?_), g2.1.good⟩, .inl ((gm.trans g1).trans g2)⟩
    · unfold LiveWorld.made at e1
      simp only [BOp.live, Live.union, Live.make, Live.update, GoM.bind_def, e1, e2, GoM.pure_apply]
    · rw [List.any_append, ((h.of r).perm hks1).any, ((h.of o).perm hks2).any]
  | inter r o =>
    obtain ⟨hr, ho⟩ := hv
    rw [← hn] at hr ho
    have main : ∀ small large : MRef, ((small = r ∧ large = o) ∨ (small = o ∧ large = r)) → Live.orderSet r o w.made = .ok (small, large) w.made →
        ∃ w', (BOp.inter r o).live rt extra w = .ok (.ref (some w.next)) w' ∧ LDone w st (.inter r o) (.ref (some w.next)) w' := by
      intro small large hsl hos
      have hl : large ≠ some w.next := by
        rcases hsl with ⟨-, rfl⟩ | ⟨-, rfl⟩
        · exact ho.ne
        · exact hr.ne
      obtain ⟨w', e, g, ks, hks, p⟩ := addLoop rt extra small w.next (st.of large) (fun _ k => do
          let h ← Live.has large k
          if h then
            let _ ← Live.insert rt (some w.next) k
            return ((), true)
          else return ((), true)) w.made gm.1.good hin hpm (by
        intro w' k hw'
        simp only [GoM.bind_def, Live.has, Live.contains, hw' large hl, h.2.made_entries, h.any]
        cases st.of large k <;> rfl)
      rw [h.2.made_entries] at hks
      rw [hme] at p
      refine ⟨w', ?_, by simp [BState.Ok, hn], ⟨p.relNew h.2 h.1 (Lists.fill _ _ fun x => ?_), g.1.good⟩, .inl (gm.trans g)⟩
      · unfold LiveWorld.made at e hos
        simp only [BOp.live, Live.intersection, Live.make, GoM.bind_def, hos, e, GoM.pure_apply]
      · rw [((h.of small).perm hks).any_filter (fun a b hab => (h.of large).congr hab)]
        rcases hsl with ⟨rfl, rfl⟩ | ⟨rfl, rfl⟩
        · rfl
        · rw [Bool.and_comm]
    by_cases hlt : ((w.made.entries r).length : Int) < (w.made.entries o).length
    · obtain ⟨w', e, hd⟩ := main r o (.inl ⟨rfl, rfl⟩) (by simp only [Live.orderSet, Live.len, Live.count, GoM.bind_def, if_pos hlt, GoM.pure_apply])
      exact .inl ⟨_, w', e, by simp, hd⟩
    · obtain ⟨w', e, hd⟩ := main o r (.inr ⟨rfl, rfl⟩) (by simp only [Live.orderSet, Live.len, Live.count, GoM.bind_def, if_neg hlt, GoM.pure_apply])
      exact .inl ⟨_, w', e, by simp, hd⟩
  | diff r o =>
    obtain ⟨hr, ho⟩ := hv
    rw [← hn] at hr ho
    obtain ⟨w', e, g, ks, hks, p⟩ := addLoop rt extra r w.next (fun k => !st.of o k) (fun _ k => do
          let h ← Live.has o k
          if !h then
            let _ ← Live.insert rt (some w.next) k
            return ((), true)
          else return ((), true)) w.made gm.1.good hin hpm (by
        intro w' k hw'
        simp only [GoM.bind_def, Live.has, Live.contains, hw' o ho.ne, h.2.made_entries, h.any]
        cases st.of o k <;> rfl)
    rw [h.2.made_entries] at hks
    rw [hme] at p
    refine .inl ⟨.ref (some w.next), w', ?_, by simp, by simp [BState.Ok, hn], ⟨p.relNew h.2 h.1 (Lists.fill _ _ fun x => ?_), g.1.good⟩, .inl (gm.trans g)⟩
    · unfold LiveWorld.made at e
      simp only [BOp.live, Live.difference, Live.make, GoM.bind_def, e, GoM.pure_apply]
    · exact ((h.of r).perm hks).any_filter (S' := fun k => !st.of o k) (fun a b hab => by rw [(h.of o).congr hab]) x
  | disjoint r o =>
    have main : ∀ small large : MRef, ((small = r ∧ large = o) ∨ (small = o ∧ large = r)) → Live.orderSet r o w = .ok (small, large) w →
        ∃ b n, (BOp.disjoint r o).live rt extra w = .ok (.flag b) { w with steps := n } ∧ (b = true ↔ ∀ k, ¬ (st.of r k = true ∧ st.of o k = true)) := by
      intro small large hsl hos
      obtain ⟨n, e⟩ := allLoop rt extra small (fun k => !st.of large k) (fun _ k => do
          let h ← Live.has large k
          if h then return (false, false) else return (true, true)) w h.2 (by
        intro n t k
        have := (h.steps n).any large k
        simp only [GoM.bind_def, Live.has, Live.contains, this]
        cases st.of large k <;> rfl)
      refine ⟨_, n, by simp only [BOp.live, Live.isDisjointOf, GoM.bind_def, hos, e, GoM.pure_apply]; rfl, ?_⟩
      rw [all_lists (h.of small) _ (fun a b hab => by rw [(h.of large).congr hab])]
      refine forall_congr' fun k => ?_
      rcases hsl with ⟨rfl, rfl⟩ | ⟨rfl, rfl⟩ <;> cases st.of small k <;> cases st.of large k <;> simp
    by_cases hlt : ((w.entries r).length : Int) < (w.entries o).length
    · obtain ⟨b, n, e, hb⟩ := main r o (.inl ⟨rfl, rfl⟩) (by simp only [Live.orderSet, Live.len, Live.count, GoM.bind_def, if_pos hlt, GoM.pure_apply])
      exact .inl ⟨_, _, e, by simp, .look h n ⟨b, rfl, hb⟩ rfl⟩
    · obtain ⟨b, n, e, hb⟩ := main o r (.inr ⟨rfl, rfl⟩) (by simp only [Live.orderSet, Live.len, Live.count, GoM.bind_def, if_neg hlt, GoM.pure_apply])
      exact .inl ⟨_, _, e, by simp, .look h n ⟨b, rfl, hb⟩ rfl⟩
  | subset r o =>
    obtain ⟨b, n, e, hb⟩ := subset_live rt extra w st h r o
    exact .inl ⟨.flag b, _, by simp only [BOp.live, GoM.bind_def, e, GoM.pure_apply], by simp, .look h n ⟨b, rfl, hb⟩ rfl⟩
  | superset r o =>
    obtain ⟨b, n, e, hb⟩ := subset_live rt extra w st h o r
    exact .inl ⟨.flag b, _, by simp only [BOp.live, Live.isSupersetOf, GoM.bind_def, e, GoM.pure_apply], by simp, .look h n ⟨b, rfl, hb⟩ rfl⟩

end Stl4go
