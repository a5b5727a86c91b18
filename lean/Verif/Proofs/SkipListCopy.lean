import Verif.Spec.SkipListCopy
import Verif.Proofs.SkipListRun
/-! # Lemmas about copies of skip lists -/
namespace Stl4go
variable {K V : Type}
variable {impl : SLImpl K} {sl : SL K V} {ids : List Nat} {m : List (K × V)} {d : Int}
variable {key : K} {iG iH iS : List Nat} {G H S : List (K × V)}

/-- A greater level and another counter. -/
theorem SLInvD.refit {less : K → K → Bool} (h : SLInvD d less sl ids m) (l : Nat) (h1 : sl.level ≤ l) (h2 : l ≤ 40) (n : Int) :
    SLInvD (n - ids.length) less { sl with level := l, len := n } ids m where
  linked := h.linked.congr (fun r i => by cases r <;> rfl) (fun _ _ => rfl)
  lvl_pos := h.lvl_pos
  lvl_le := fun p hp => Nat.le_trans (h.lvl_le p hp) h1
  level_pos := Nat.le_trans h.level_pos h1
  level_le := h2
  head_len := h.head_len
  cache_len := h.cache_len
  count := h.count
  len_d := by simp only; omega
  kvs := h.kvs
  sorted := h.sorted

theorem SLInvD.relen {less : K → K → Bool} (h : SLInvD d less sl ids m) (n : Int) : SLInvD (n - ids.length) less { sl with len := n } ids m :=
  h.refit sl.level (Nat.le_refl _) h.level_le n

theorem SLInvD.len_is {less : K → K → Bool} (h : SLInvD d less sl ids m) : sl.len = m.length + d := by rw [h.len_d, h.len_m]

/-! ## Methods of the list -/

/-- Every operation of the list, whatever its counter is. -/
theorem SLInvD.execD (hl : impl.Lawful) (h : SLInvD d impl.less sl ids m) (rnd : Nat) (o : SMOp K V) :
    ∃ sl' ids' d', sl.exec impl rnd o = .ret (sl', SharedMap.show impl.less m sl.len o) ∧
      SLInvD d' impl.less sl' ids' (SMap.step impl.less m o).2 ∧ sl'.len = SharedMap.count impl.less m sl.len o := by
  have hlen := h.len_is
  cases o with
  | insert k v =>
    obtain ⟨iG, iH, iS, G, H, S, p⟩ := h.pos hl k
    rcases p.cases with ⟨rfl, rfl⟩ | ⟨q, e, rfl, rfl, hkv⟩
    · obtain ⟨sl', a1, a2, _⟩ := h.insert_miss hl p rnd v
      refine ⟨sl', _, d, by simp [SL.exec, a1, SharedMap.show, SMap.step], a2, ?_⟩
      have hc : SharedMap.count impl.less m sl.len (.insert k v) = sl.len + 1 := by simp [SharedMap.count, SMap.find_split p.sp]
      have hm : m.length = G.length + S.length := by rw [p.sp.eq]; simp
      rw [hc, a2.len_is, SMap.insert_miss hl.weak p.sp, hlen, hm]
      simp; omega
    · obtain ⟨sl', a1, a2, _⟩ := h.insert_hit hl p rnd v
      refine ⟨sl', _, d, by simp [SL.exec, a1, SharedMap.show, SMap.step], a2, ?_⟩
      have hc : SharedMap.count impl.less m sl.len (.insert k v) = sl.len := by simp [SharedMap.count, SMap.find_split p.sp]
      have hm : m.length = G.length + (S.length + 1) := by rw [p.sp.eq]; simp
      rw [hc, a2.len_is, SMap.insert_hit hl.weak p.sp, hlen, hm]
      simp
  | remove k =>
    obtain ⟨iG, iH, iS, G, H, S, p⟩ := h.pos hl k
    rcases p.cases with ⟨rfl, rfl⟩ | ⟨q, e, rfl, rfl, hkv⟩
    · obtain ⟨sl', a1, a2, _⟩ := h.remove_miss hl p
      refine ⟨sl', ids, d, by simp [SL.exec, a1, SharedMap.show, SMap.step, SMap.find_split p.sp], ?_, ?_⟩
      · simp only [SMap.step, SMap.erase_split p.sp]
        have : m = G ++ S := by simpa using p.sp.eq
        rw [← this]; exact a2
      · rw [a2.len_is, hlen]; simp [SharedMap.count, SMap.find_split p.sp]
    · obtain ⟨sl', a1, a2, _⟩ := h.remove_hit hl p
      refine ⟨sl', _, d, by simp [SL.exec, a1, SharedMap.show, SMap.step, SMap.find_split p.sp], a2, ?_⟩
      have hc : SharedMap.count impl.less m sl.len (.remove k) = sl.len - 1 := by simp [SharedMap.count, SMap.find_split p.sp]
      have hm : m.length = G.length + (S.length + 1) := by rw [p.sp.eq]; simp
      rw [hc, a2.len_is, SMap.erase_split p.sp, hlen, hm]
      simp; omega
  | clear => exact ⟨sl.clear, [], 0, rfl, h.clear, rfl⟩
  | update k v =>
    obtain ⟨iG, iH, iS, G, H, S, p⟩ := h.pos hl k
    have hf := h.findNode hl p
    rcases p.cases with ⟨rfl, rfl⟩ | ⟨q, e, rfl, rfl, hkv⟩
    · exact ⟨sl, ids, d, by simp [SL.exec, SL.find, hf, SharedMap.show, SMap.step, SMap.find_split p.sp],
        by simpa [SMap.step, SMap.find_split p.sp] using h, rfl⟩
    · obtain ⟨sl', a1, a2, _⟩ := h.setValue (A := iG) (B := iS) (q := q) (mA := G) (mB := S) (e := e)
        (by rw [p.ids_eq]; rfl) (by rw [p.sp.eq]; rfl) p.kG hkv p.kS v
      refine ⟨sl', ids, d, by simp [SL.exec, SL.find, hf, a1, SharedMap.show, SMap.step, SMap.find_split p.sp], ?_, ?_⟩
      · simpa [SMap.step, SMap.find_split p.sp, SMap.insert_hit hl.weak p.sp] using a2
      · rw [a2.len_is, hlen]; simp [SharedMap.count, p.sp.eq]
  | find k =>
    obtain ⟨iG, iH, iS, G, H, S, p⟩ := h.pos hl k
    refine ⟨sl, ids, d, ?_, h, rfl⟩
    have hf := h.findNode hl p
    rcases p.cases with ⟨rfl, rfl⟩ | ⟨q, e, rfl, rfl, hkv⟩
    · simp [SL.exec, SL.find, hf, SharedMap.show, SMap.step, SMap.find_split p.sp]
    · obtain ⟨n, hn, _, hv⟩ := SL.kv_some hkv
      simp [SL.exec, SL.find, hf, SharedMap.show, SMap.step, SMap.find_split p.sp, SL.readPtr, SL.deref, idx_of_get hn, hv]
  | has k =>
    obtain ⟨iG, iH, iS, G, H, S, p⟩ := h.pos hl k
    refine ⟨sl, ids, d, ?_, h, rfl⟩
    have hf := h.findNode hl p
    rcases p.cases with ⟨rfl, rfl⟩ | ⟨q, e, rfl, rfl, hkv⟩ <;>
      simp [SL.exec, SL.has, hf, SharedMap.show, SMap.step, SMap.find_split p.sp]
  | len => exact ⟨sl, ids, d, rfl, h, rfl⟩
  | isEmpty => exact ⟨sl, ids, d, rfl, h, rfl⟩
  | iterate =>
    refine ⟨sl, ids, d, ?_, h, rfl⟩
    have := h.observe (A := []) (B := ids) rfl h.kvs
    simp [SL.exec, h.iterate, this, SharedMap.show, SMap.step]
  | lowerBound k =>
    obtain ⟨iG, iH, iS, G, H, S, p⟩ := h.pos hl k
    refine ⟨sl, ids, d, ?_, h, rfl⟩
    have := h.observe p.ids_eq p.kHS
    simp [-List.head?_append, SL.exec, SL.lowerBoundIter, h.lowerBound hl p, this, SharedMap.show, SMap.step, SMap.lower_split hl.weak p.sp]
  | upperBound k =>
    obtain ⟨iG, iH, iS, G, H, S, p⟩ := h.pos hl k
    refine ⟨sl, ids, d, ?_, h, rfl⟩
    have := h.observe (A := iG ++ iH) (B := iS) (by rw [p.ids_eq]; simp) p.kS
    simp [SL.exec, SL.upperBoundIter, h.upperBound hl p, this, SharedMap.show, SMap.step, SMap.upper_split hl.weak p.sp]

/-! ## Methods of a copy -/

theorem SL.lowerLevel_inv : ∀ (fuel : Nat) {s t : SL K V}, SL.lowerLevel fuel s = .ret t → ∃ l, t = { s with level := l } := by
  intro fuel
  induction fuel with
  | zero => intro s t h; simp [SL.lowerLevel] at h
  | succ fuel ih =>
    intro s t h
    unfold SL.lowerLevel at h
    split at h
    · cases hx : idx s.headNext (s.level - 1) with
      | ret o =>
        rw [hx] at h
        cases o with
        | none =>
          obtain ⟨l, e⟩ := ih h
          exact ⟨l, e⟩
        | some x => simp at h; exact ⟨s.level, h.symm⟩
      | panic => rw [hx] at h; simp at h
      | diverge => rw [hx] at h; simp at h
    · injection h with h; exact ⟨s.level, h.symm⟩

theorem SL.setNextAt_fields {s t : SL K V} {r : Ref} {i : Nat} {o : Option Nat} (h : s.setNextAt r i o = .ret t) : t.level = s.level ∧ t.len = s.len := by
  cases r with
  | head =>
    simp only [SL.setNextAt] at h
    cases hx : setIdx s.headNext i o with
    | ret y => rw [hx] at h; simp at h; rw [← h]; exact ⟨rfl, rfl⟩
    | panic => rw [hx] at h; simp at h
    | diverge => rw [hx] at h; simp at h
  | node p =>
    simp only [SL.setNextAt] at h
    cases hd : s.deref p with
    | ret n =>
      rw [hd] at h
      simp only [Outcome.ret_bind] at h
      cases hx : setIdx n.next i o with
      | ret y => rw [hx] at h; simp at h; rw [← h]; exact ⟨rfl, rfl⟩
      | panic => rw [hx] at h; simp at h
      | diverge => rw [hx] at h; simp at h
    | panic => rw [hd] at h; simp at h
    | diverge => rw [hd] at h; simp at h

theorem SL.unlink_fields {p : Nat} {prevs : List (Option Ref)} : ∀ (rem i : Nat) {s t : SL K V}, SL.unlink p prevs rem i s = .ret t →
    t.level = s.level ∧ t.len = s.len := by
  intro rem
  induction rem with
  | zero => intro i s t h; simp [SL.unlink] at h; rw [h]; exact ⟨rfl, rfl⟩
  | succ rem ih =>
    intro i s t h
    simp only [SL.unlink] at h
    cases hv : s.nextAt (.node p) i with
    | ret v =>
      rw [hv] at h
      cases hr : prevAt prevs i with
      | ret r =>
        rw [hr] at h
        simp only [Outcome.ret_bind] at h
        cases hs : s.setNextAt r i v with
        | ret s1 =>
          rw [hs] at h
          obtain ⟨e1, e2⟩ := ih (i + 1) h
          obtain ⟨e3, e4⟩ := SL.setNextAt_fields hs
          exact ⟨e1.trans e3, e2.trans e4⟩
        | panic => rw [hs] at h; simp at h
        | diverge => rw [hs] at h; simp at h
      | panic => rw [hr] at h; simp at h
      | diverge => rw [hr] at h; simp at h
    | panic => rw [hv] at h; simp at h
    | diverge => rw [hv] at h; simp at h

/-- What `Remove` did. -/
theorem SL.remove_inv {s t : SL K V} (h : s.remove impl key = .ret (t, true)) :
    ∃ s0 p prevs n u l, s.findRemovePoint impl key = .ret (s0, some (p, prevs)) ∧ s0.deref p = .ret n ∧
      SL.unlink p prevs n.next.length 0 s0 = .ret u ∧ t = { u with level := l, len := u.len - 1 } := by
  simp only [SL.remove] at h
  cases hf : s.findRemovePoint impl key with
  | ret r =>
    obtain ⟨s0, f⟩ := r
    rw [hf] at h
    simp only [Outcome.ret_bind] at h
    cases f with
    | none => simp at h
    | some x =>
      obtain ⟨p, prevs⟩ := x
      simp only at h
      cases hd : s0.deref p with
      | ret n =>
        rw [hd] at h
        simp only [Outcome.ret_bind] at h
        cases hu : SL.unlink p prevs n.next.length 0 s0 with
        | ret u =>
          rw [hu] at h
          simp only [Outcome.ret_bind] at h
          cases hw : SL.lowerLevel (u.level + 1) u with
          | ret t' =>
            rw [hw] at h
            obtain ⟨l, e⟩ := SL.lowerLevel_inv _ hw
            simp at h
            exact ⟨s0, p, prevs, n, u, l, rfl, hd, hu, by rw [← h, e]⟩
          | panic => rw [hw] at h; simp at h
          | diverge => rw [hw] at h; simp at h
        | panic => rw [hu] at h; simp at h
        | diverge => rw [hu] at h; simp at h
      | panic => rw [hd] at h; simp at h
      | diverge => rw [hd] at h; simp at h
  | panic => rw [hf] at h; simp at h
  | diverge => rw [hf] at h; simp at h

theorem SL.findRemovePoint_fields {s s0 : SL K V} {x : Option (Nat × List (Option Ref))} (h : s.findRemovePoint impl key = .ret (s0, x)) :
    s0.level = s.level ∧ s0.len = s.len := by
  have key : ∀ {p : List (Option Ref)}, s.findPrevNodes impl key = .ret (s0, p) → s0.level = s.level ∧ s0.len = s.len := by
    intro p hf
    simp only [SL.findPrevNodes] at hf
    cases ha : s.prevsSlice with
    | ret a =>
      rw [ha] at hf
      simp only [Outcome.ret_bind] at hf
      cases impl with
      | ordered _ =>
        simp only at hf
        cases hb : s.findPrevOuterO key s.level .head a with
        | ret b => rw [hb] at hf; simp at hf; rw [← hf.1]; exact ⟨rfl, rfl⟩
        | panic => rw [hb] at hf; simp at hf
        | diverge => rw [hb] at hf; simp at hf
      | func keyCmp =>
        simp only at hf
        cases hb : SL.findPrevOuterF keyCmp s key s.level .head a with
        | ret b => rw [hb] at hf; simp at hf; rw [← hf.1]; exact ⟨rfl, rfl⟩
        | panic => rw [hb] at hf; simp at hf
        | diverge => rw [hb] at hf; simp at hf
    | panic => rw [ha] at hf; simp at hf
    | diverge => rw [ha] at hf; simp at hf
  simp only [SL.findRemovePoint] at h
  cases hf : s.findPrevNodes impl _ with
  | ret r =>
    obtain ⟨s1, prevs⟩ := r
    rw [hf] at h
    simp only [Outcome.ret_bind] at h
    have : s1 = s0 := by
      cases hr : prevAt prevs 0 with
      | ret r =>
        rw [hr] at h
        simp only [Outcome.ret_bind] at h
        cases hn : s1.nextAt r 0 with
        | ret o =>
          rw [hn] at h
          simp only [Outcome.ret_bind] at h
          cases o with
          | none => simp at h; exact h.1
          | some p =>
            simp only at h
            cases hd : s1.deref p with
            | ret n =>
              rw [hd] at h
              simp only [Outcome.ret_bind] at h
              split at h <;> (simp at h; exact h.1)
            | panic => rw [hd] at h; simp at h
            | diverge => rw [hd] at h; simp at h
        | panic => rw [hn] at h; simp at h
        | diverge => rw [hn] at h; simp at h
      | panic => rw [hr] at h; simp at h
      | diverge => rw [hr] at h; simp at h
    subst this
    exact key hf
  | panic => rw [hf] at h; simp at h
  | diverge => rw [hf] at h; simp at h

/-- `Remove` of a copy, of a key that is there. -/
theorem SLInvD.copyRemove_hit (hl : impl.Lawful) (h : SLInvD d impl.less sl ids m) {q : Nat} {e : K × V}
    (p : Pos impl.less sl ids m key iG [q] iS G [e] S) {own : SLOwn} (o1 : 1 ≤ own.level) (o2 : own.level ≤ 40) :
    ∃ sl' own' d', sl.copyRemove impl own key = .ret ((sl', own'), true) ∧ SLInvD d' impl.less sl' (iG ++ iS) (SMap.erase impl.less key m) ∧
      own'.len = own.len - 1 ∧ 1 ≤ own'.level ∧ own'.level ≤ 40 ∧ sl'.len = sl.len ∧ sl'.level = sl.level := by
  obtain ⟨t, a1, a2, _⟩ := h.remove_hit hl p
  obtain ⟨s0, p', prevs, n, u, l, f1, f2, f3, rfl⟩ := SL.remove_inv a1
  obtain ⟨g1, g2⟩ := SL.findRemovePoint_fields f1
  obtain ⟨g3, g4⟩ := SL.unlink_fields _ _ f3
  have hlt : l ≤ u.level := by
    have := a1
    simp only [SL.remove, f1, f2, f3, Outcome.ret_bind] at this
    obtain ⟨l', w1, w2, w3, _⟩ := lowerLevel_spec (u.level + 1) u (by omega) (by rw [g3, g1]; exact h.level_pos)
      (by have := a2.head_len; simp only at this; rw [this, g3, g1]; exact h.level_le)
    rw [w1] at this
    simp at this
    omega
  have hu : SLInvD (u.len - ((iG ++ iS).length : Nat)) impl.less u (iG ++ iS) (SMap.erase impl.less key m) :=
    a2.refit u.level hlt (by rw [g3, g1]; exact h.level_le) u.len
  obtain ⟨l', w1, w2, w3, _⟩ := lowerLevel_spec (own.level + 1) { u with level := own.level } (by simp only; omega) o1 (by
    have := hu.head_len; simp only; omega)
  refine ⟨u, { level := l', len := own.len - 1 }, _, ?_, hu, rfl, w2, Nat.le_trans w3 o2, g4.trans g2, g3.trans g1⟩
  simp [SL.copyRemove, f1, f2, f3, w1]

theorem SLInvD.copyRemove_miss (hl : impl.Lawful) (h : SLInvD d impl.less sl ids m)
    (p : Pos impl.less sl ids m key iG [] iS G [] S) (own : SLOwn) :
    ∃ sl', sl.copyRemove impl own key = .ret ((sl', own), false) ∧ SLInvD d impl.less sl' ids m ∧ sl'.len = sl.len ∧ sl'.level = sl.level := by
  obtain ⟨t, a1, a2, _⟩ := h.remove_miss hl p
  simp only [SL.remove] at a1
  cases hf : sl.findRemovePoint impl key with
  | ret r =>
    obtain ⟨s0, f⟩ := r
    rw [hf] at a1
    simp only [Outcome.ret_bind] at a1
    cases f with
    | none =>
      simp at a1
      subst a1
      obtain ⟨g1, g2⟩ := SL.findRemovePoint_fields hf
      exact ⟨s0, by simp [SL.copyRemove, hf], a2, g2, g1⟩
    | some x =>
      obtain ⟨p, prevs⟩ := x
      simp only at a1
      exfalso
      cases hd : s0.deref p with
      | ret n =>
        rw [hd] at a1
        simp only [Outcome.ret_bind] at a1
        cases hu : SL.unlink p prevs n.next.length 0 s0 with
        | ret u =>
          rw [hu] at a1
          simp only [Outcome.ret_bind] at a1
          cases hw : SL.lowerLevel (u.level + 1) u with
          | ret t' => rw [hw] at a1; simp at a1
          | panic => rw [hw] at a1; simp at a1
          | diverge => rw [hw] at a1; simp at a1
        | panic => rw [hu] at a1; simp at a1
        | diverge => rw [hu] at a1; simp at a1
      | panic => rw [hd] at a1; simp at a1
      | diverge => rw [hd] at a1; simp at a1
  | panic => rw [hf] at a1; simp at a1
  | diverge => rw [hf] at a1; simp at a1

/-- `Insert` of a copy, of a key that is there. -/
theorem SLInvD.copyInsert_hit (hl : impl.Lawful) (h : SLInvD d impl.less sl ids m) {q : Nat} {e : K × V}
    (p : Pos impl.less sl ids m key iG [q] iS G [e] S) (rnd : Nat) (own : SLOwn) (v : V) :
    ∃ sl', sl.copyInsert impl rnd own key v = .ret (sl', own) ∧ SLInvD d impl.less sl' ids (SMap.insert impl.less key v m) ∧
      sl'.len = sl.len ∧ sl'.level = sl.level := by
  obtain ⟨prevs, hp, hf, _⟩ := h.findInsertPoint_hit hl p
  have h' := h.store hp
  have hkq : sl.kv q = some e := by have := p.kH; simpa using this
  obtain ⟨sl', a1, a2, _⟩ := SL.setValue_spec (sl := sl.storePrevs prevs) hkq v
  obtain ⟨sl'', b1, b2, _⟩ := h'.setValue (A := iG) (B := iS) (q := q) (mA := G) (mB := S) (e := e)
    (by rw [p.ids_eq]; rfl) (by rw [p.sp.eq]; rfl) p.kG hkq p.kS v
  have e1 : sl' = sl'' := by rw [a1] at b1; injection b1
  subst e1
  refine ⟨sl', ?_, by rw [SMap.insert_hit hl.weak p.sp]; exact b2, ?_, ?_⟩
  · simp only [SL.copyInsert, hf, Outcome.ret_bind, b1]; rfl
  · rw [b2.len_d, h.len_d]
  · simp only [SL.setValue] at a1
    cases hd : (sl.storePrevs prevs).deref q with
    | ret n => rw [hd] at a1; simp at a1; rw [← a1]; rfl
    | panic => rw [hd] at a1; simp at a1
    | diverge => rw [hd] at a1; simp at a1

/-- `Insert` of a copy, of a new key, on levels that both have. -/
theorem SLInvD.copyInsert_miss (hl : impl.Lawful) (h : SLInvD d impl.less sl ids m)
    (p : Pos impl.less sl ids m key iG [] iS G [] S) {rnd : Nat} {own : SLOwn} (v : V) {l : Nat}
    (hr : SL.randomLevel { sl with len := own.len } rnd = .ret l) (h1 : l ≤ own.level) (h2 : l ≤ sl.level) :
    ∃ sl' d', sl.copyInsert impl rnd own key v = .ret (sl', { level := own.level, len := own.len + 1 }) ∧
      SLInvD d' impl.less sl' (iG ++ sl.nodes.length :: iS) (SMap.insert impl.less key v m) ∧ sl'.len = sl.len ∧ sl'.level = sl.level := by
  obtain ⟨prevs, hp, hprev, hf⟩ := h.findInsertPoint_miss hl p
  have hids : ids = iG ++ iS := by simpa using p.ids_eq
  obtain ⟨l', r1, r2, r3, _⟩ := SL.randomLevel_spec { sl with len := own.len } rnd
  have e1 : l' = l := by rw [hr] at r1; injection r1 with r1; exact r1.symm
  subst e1
  obtain ⟨s1, s2, sl', n1, n2, l1, l2, l3, c1, c2, c3, _⟩ := h.link_at hids p.kG p.kS hp hprev v
    (SMap.sorted_put hl.weak h.sorted p.sp ⟨hl.weak.irrefl key, hl.weak.irrefl key⟩) r2 r3
  rw [if_neg (by omega)] at c1
  injection c1 with c1
  rw [n2] at l1
  have e3 : min2 l' own.level = min2 l' sl.level := by rw [min2_nat, min2_nat]; omega
  have hr' : SL.randomLevel { sl.storePrevs prevs with len := own.len } rnd = .ret l' := hr
  refine ⟨s2, s2.len - (iG ++ sl.nodes.length :: iS).length, ?_, ?_, l3, l2⟩
  · simp only [SL.copyInsert, hf, Outcome.ret_bind, hr', n1]
    rw [e3, l1]
    simp only [Outcome.ret_bind]
    rw [if_neg (by omega)]; rfl
  · rw [SMap.insert_miss hl.weak p.sp, c1]; exact c3.relen s2.len

theorem SLInvD.copyClear {less : K → K → Bool} (h : SLInvD d less sl ids m) : SLInvD (sl.len - (([] : List Nat).length : Nat)) less sl.copyClear.1 [] [] :=
  SLInvD.refit (h.clear) sl.level h.level_pos h.level_le sl.len

/-- Every operation of a copy. -/
theorem SLInvD.execCopy (hl : impl.Lawful) (h : SLInvD d impl.less sl ids m) (rnd : Nat) {own : SLOwn} (o1 : 1 ≤ own.level) (o2 : own.level ≤ 40)
    (o : SMOp K V) (hfair : ∀ k v, o = .insert k v → sl.has impl k = .ret true ∨
      ∃ l, SL.randomLevel { sl with len := own.len } rnd = .ret l ∧ l ≤ own.level ∧ l ≤ sl.level) :
    ∃ sl' own' ids' d', sl.execCopy impl rnd own o = .ret ((sl', own'), SharedMap.show impl.less m own.len o) ∧
      SLInvD d' impl.less sl' ids' (SMap.step impl.less m o).2 ∧ own'.len = SharedMap.count impl.less m own.len o ∧
      1 ≤ own'.level ∧ own'.level ≤ 40 ∧ sl'.len = sl.len := by
  have rest : ∀ o : SMOp K V, (∀ n, SharedMap.show impl.less m n o = SharedMap.show impl.less m own.len o) →
      (∀ n, SharedMap.count impl.less m n o = n) → sl.execCopy impl rnd own o = (do
        let (sl, ob) ← sl.exec impl rnd o
        return ((sl, own), ob)) →
      ∃ sl' own' ids' d', sl.execCopy impl rnd own o = .ret ((sl', own'), SharedMap.show impl.less m own.len o) ∧
        SLInvD d' impl.less sl' ids' (SMap.step impl.less m o).2 ∧ own'.len = SharedMap.count impl.less m own.len o ∧
        1 ≤ own'.level ∧ own'.level ≤ 40 ∧ sl'.len = sl.len := by
    intro o e1 e2 e3
    obtain ⟨sl', ids', d', a1, a2, a3⟩ := h.execD hl rnd o
    refine ⟨sl', own, ids', d', ?_, a2, (e2 _).symm, o1, o2, by rw [a3, e2]⟩
    rw [e3, a1, e1 sl.len]; rfl
  cases o with
  | insert k v =>
    obtain ⟨iG, iH, iS, G, H, S, p⟩ := h.pos hl k
    rcases p.cases with ⟨rfl, rfl⟩ | ⟨q, e, rfl, rfl, hkv⟩
    · rcases hfair k v rfl with hc | ⟨l, f1, f2, f3⟩
      · have hf := h.findNode hl p
        simp [SL.has, hf] at hc
      · obtain ⟨sl', d', a1, a2, a3, _⟩ := h.copyInsert_miss hl p v f1 f2 f3
        exact ⟨sl', { level := own.level, len := own.len + 1 }, iG ++ sl.nodes.length :: iS, d', by simp [SL.execCopy, a1, SharedMap.show, SMap.step], a2, by simp [SharedMap.count, SMap.find_split p.sp], o1, o2, a3⟩
    · obtain ⟨sl', a1, a2, a3, _⟩ := h.copyInsert_hit hl p rnd own v
      exact ⟨sl', own, ids, d, by simp [SL.execCopy, a1, SharedMap.show, SMap.step], a2, by simp [SharedMap.count, SMap.find_split p.sp], o1, o2, a3⟩
  | remove k =>
    obtain ⟨iG, iH, iS, G, H, S, p⟩ := h.pos hl k
    rcases p.cases with ⟨rfl, rfl⟩ | ⟨q, e, rfl, rfl, hkv⟩
    · obtain ⟨sl', a1, a2, a3, _⟩ := h.copyRemove_miss hl p own
      refine ⟨sl', own, ids, d, by simp [SL.execCopy, a1, SharedMap.show, SMap.step, SMap.find_split p.sp], ?_,
        by simp [SharedMap.count, SMap.find_split p.sp], o1, o2, a3⟩
      simp only [SMap.step, SMap.erase_split p.sp]
      have : m = G ++ S := by simpa using p.sp.eq
      rw [← this]; exact a2
    · obtain ⟨sl', own', d', a1, a2, a3, a4, a5, a6, _⟩ := h.copyRemove_hit hl p o1 o2
      exact ⟨sl', own', _, d', by simp [SL.execCopy, a1, SharedMap.show, SMap.step, SMap.find_split p.sp], a2,
        by simp [SharedMap.count, SMap.find_split p.sp, a3], a4, a5, a6⟩
  | clear => exact ⟨_, _, [], _, rfl, h.copyClear, rfl, by simp, by simp, rfl⟩
  | len => exact ⟨sl, own, ids, d, rfl, h, rfl, o1, o2, rfl⟩
  | isEmpty => exact ⟨sl, own, ids, d, rfl, h, rfl, o1, o2, rfl⟩
  | update k v => exact rest _ (fun _ => rfl) (fun _ => rfl) rfl
  | find k => exact rest _ (fun _ => rfl) (fun _ => rfl) rfl
  | has k => exact rest _ (fun _ => rfl) (fun _ => rfl) rfl
  | iterate => exact rest _ (fun _ => rfl) (fun _ => rfl) rfl
  | lowerBound k => exact rest _ (fun _ => rfl) (fun _ => rfl) rfl
  | upperBound k => exact rest _ (fun _ => rfl) (fun _ => rfl) rfl

/-! ## Histories -/

/-- The list, its copies, and the map they have in common. -/
structure SLCInv (less : K → K → Bool) (w : SLCWorld K V) (s : SharedMap K V) : Prop where
  sl : ∃ d ids, SLInvD d less w.sl ids s.m
  len : s.n none = some w.sl.len
  vars : ∀ i, match w.vars i with
    | .zero => s.n (some i) = none
    | .copy own => s.n (some i) = some own.len ∧ 1 ≤ own.level ∧ own.level ≤ 40

theorem SLCInv.init (less : K → K → Bool) : SLCInv less (SLCWorld.init : SLCWorld K V) SharedMap.init where
  sl := ⟨0, [], SLInv.new less⟩
  len := rfl
  vars := fun i => by simp [SLCWorld.init, SharedMap.init]

theorem SLCInv.step (hl : impl.Lawful) {w : SLCWorld K V} {s : SharedMap K V} (h : SLCInv impl.less w s) (c : SLCStmt K V) (hf : w.FairStmt impl c) :
    ∃ w', w.step impl c = .ret ((s.step impl.less c).1, w') ∧ SLCInv impl.less w' (s.step impl.less c).2 := by
  obtain ⟨d, ids, hi⟩ := h.sl
  cases c with
  | op a rnd o =>
    cases a with
    | none =>
      obtain ⟨sl', ids', d', a1, a2, a3⟩ := hi.execD hl rnd o
      refine ⟨{ w with sl := sl' }, ?_, ?_⟩
      · simp [SLCWorld.step, a1, SharedMap.step, h.len]
      · simp only [SharedMap.step, h.len]
        exact ⟨⟨d', ids', a2⟩, by simp [a3], fun i => by simpa using h.vars i⟩
    | some i =>
      have hv := h.vars i
      cases hw : w.vars i with
      | zero =>
        rw [hw] at hv
        simp only at hv
        have hz : SL.execZero o = SLCStmt.unusable o := by cases o <;> rfl
        refine ⟨w, ?_, ?_⟩
        · simp [SLCWorld.step, hw, SharedMap.step, hv, hz]
        · simp only [SharedMap.step, hv]; exact h
      | copy own =>
        rw [hw] at hv
        obtain ⟨v1, v2, v3⟩ := hv
        obtain ⟨sl', own', ids', d', a1, a2, a3, a4, a5, a6⟩ := hi.execCopy hl rnd v2 v3 o (by
          intro k v e; subst e
          simpa [SLCWorld.FairStmt, hw] using hf)
        refine ⟨{ sl := sl', vars := fun j => if j = i then .copy own' else w.vars j }, ?_, ?_⟩
        · simp [SLCWorld.step, hw, a1, SharedMap.step, v1]
        · simp only [SharedMap.step, v1]
          refine ⟨⟨d', ids', a2⟩, by simp [a6, h.len], fun j => ?_⟩
          by_cases hj : j = i
          · subst hj; simp [a3, a4, a5]
          · simpa [hj] using h.vars j
  | copy i a =>
    cases a with
    | none =>
      refine ⟨_, rfl, ⟨⟨d, ids, hi⟩, h.len, fun j => ?_⟩⟩
      by_cases hj : j = i
      · subst hj; simp [SharedMap.step, h.len, hi.level_pos, hi.level_le]
      · simpa [SharedMap.step, hj] using h.vars j
    | some k =>
      refine ⟨_, rfl, ⟨⟨d, ids, hi⟩, h.len, fun j => ?_⟩⟩
      by_cases hj : j = i
      · subst hj; simpa [SharedMap.step] using h.vars k
      · simpa [SharedMap.step, hj] using h.vars j

theorem SLCInv.run (hl : impl.Lawful) : ∀ (hist : List (SLCStmt K V)) {w : SLCWorld K V} {s : SharedMap K V}, SLCInv impl.less w s → w.Fair impl hist →
    ∃ w', w.run impl hist = .ret ((s.run impl.less hist).1, w') ∧ SLCInv impl.less w' (s.run impl.less hist).2 := by
  intro hist
  induction hist with
  | nil => intro w s h _; exact ⟨w, rfl, h⟩
  | cons c hist ih =>
    intro w s h hf
    obtain ⟨w1, a1, a2⟩ := h.step hl c hf.1
    obtain ⟨w2, b1, b2⟩ := ih a2 (hf.2 _ _ a1)
    exact ⟨w2, by simp [SLCWorld.run, a1, b1, SharedMap.run], b2⟩

/-! ## A node above the level of the list -/

theorem SL.unlink_add (p : Nat) (prevs : List (Option Ref)) (b : Nat) : ∀ (a j : Nat) (s : SL K V),
    SL.unlink p prevs (a + b) j s = (SL.unlink p prevs a j s >>= fun t => SL.unlink p prevs b (j + a) t) := by
  intro a
  induction a with
  | zero => intro j s; simp [SL.unlink]
  | succ a ih =>
    intro j s
    rw [Nat.add_right_comm]
    simp only [SL.unlink]
    cases s.nextAt (.node p) j with
    | ret v =>
      cases prevAt prevs j with
      | ret r =>
        simp only [Outcome.ret_bind]
        cases s.setNextAt r j v with
        | ret s1 =>
          simp only [Outcome.ret_bind]
          rw [ih, show j + 1 + a = j + (a + 1) by omega]
        | panic => rfl
        | diverge => rfl
      | panic => rfl
      | diverge => rfl
    | panic => rfl
    | diverge => rfl

/-- A key whose node has more levels than the field `level` says cannot be removed. -/
theorem SLInvD.low_remove (hl : impl.Lawful) (h : SLInvD d impl.less sl ids m) {q : Nat} {e : K × V}
    (p : Pos impl.less sl ids m key iG [q] iS G [e] S) {l : Nat} (l1 : 1 ≤ l) (l2 : l < sl.lvl q) (n : Int) :
    ∃ s0 prevs nd, SL.findRemovePoint impl { sl with level := l, len := n } key = .ret (s0, some (q, prevs)) ∧ s0.deref q = .ret nd ∧
      SL.unlink q prevs nd.next.length 0 s0 = .panic := by
  have hids : ids = iG ++ q :: iS := by simpa using p.ids_eq
  have hq : q ∈ ids := by rw [hids]; simp
  have l3 : l ≤ 40 := by have := h.lvl_le q hq; have := h.level_le; omega
  have hkq : sl.kv q = some e := by have := p.kH; simpa using this
  have e1 : Ref.head = lastAt sl.lvl 40 iG := (h.head_lastAt (fun x hx => by rw [p.ids_eq]; simp [hx]) h.level_le).symm
  have hlen : (sl.prevsCache.take l).length = l := by rw [List.length_take, h.cache_len]; omega
  generalize hs : ({ sl with level := l, len := n } : SL K V) = sl0
  have L : Linked sl0.get sl0.lvl ids := by subst hs; exact h.linked.congr (fun r i => by cases r <;> rfl) (fun _ _ => rfl)
  have hlv : sl0.lvl = sl.lvl := by subst hs; rfl
  have hcache : sl0.prevsCache = sl.prevsCache := by subst hs; rfl
  have hlev : sl0.level = l := by subst hs; rfl
  have sp : Split (impl.decP key) sl0 ids iG [] ([q] ++ iS) := by
    have := p.splitP hl
    subst hs
    exact ⟨this.ids_eq, this.go, this.hit, this.stop, this.one⟩
  obtain ⟨prevs, h1, h2, h3, _⟩ := prevOuter_miss L sp (by subst hs; exact h.count) l 40 (by omega) l3 (sl.prevsCache.take l) (by omega)
  rw [hlv, ← e1] at h1
  have hsl : sl0.prevsSlice = .ret (sl.prevsCache.take l) := by
    simp only [SL.prevsSlice, hlev, hcache]
    rw [if_pos (by rw [h.cache_len]; omega)]
  have hf : sl0.findPrevNodes impl key = .ret (sl0.storePrevs prevs, prevs) := by
    cases impl with
    | ordered o =>
      have h1 : prevOuter (decPO key) sl0 l .head (sl.prevsCache.take l) = _ := h1
      rw [← findPrevOuterO_eq] at h1
      simp only [SL.findPrevNodes, hsl, hlev, Outcome.ret_bind, of_none_pair h1]; rfl
    | func c =>
      have h1 : prevOuter (decPF c key) sl0 l .head (sl.prevsCache.take l) = _ := h1
      rw [← findPrevOuterF_eq] at h1
      simp only [SL.findPrevNodes, hsl, hlev, Outcome.ret_bind, of_none_pair h1]; rfl
  obtain ⟨nd, hnn, hk, _⟩ := SL.kv_some hkq
  have hlq : sl.lvl q = nd.next.length := lvl_eq_of_node hnn
  have hd : (sl0.storePrevs prevs).deref q = .ret nd := by subst hs; exact idx_of_get hnn
  have L0 : Linked (sl0.storePrevs prevs).get sl0.lvl (iG ++ q :: iS) := by
    rw [← hids]; exact L.congr (fun r i => by cases r <;> rfl) (fun _ _ => rfl)
  have hp0 : prevAt prevs 0 = .ret (lastAt sl0.lvl 0 iG) := prevAt_of_get (h3 0 l1)
  have hn : (sl0.storePrevs prevs).nextAt (lastAt sl0.lvl 0 iG) 0 = .ret (some q) := by
    have := L0.get_lastAt (i := 0) (by omega)
    rw [SL.nextAt_of_get this]
    have hpos : 0 < sl0.lvl q := by rw [hlv]; omega
    simp [firstAt, hpos]
  refine ⟨sl0.storePrevs prevs, prevs, nd, ?_, hd, ?_⟩
  · simp [SL.findRemovePoint, hf, hp0, hn, hd, hk, SLImpl.not_ne_hit hl (p.sp.hit e (by simp))]
  · obtain ⟨r, hr⟩ : ∃ r, nd.next.length = l + (r + 1) := ⟨nd.next.length - l - 1, by omega⟩
    obtain ⟨s1, u1, u2, u3, u4⟩ := unlink_spec (prevs := prevs) (p := q) (P := fun i => lastAt sl0.lvl i iG)
      (N := fun i => firstAt sl0.lvl i iS) l 0 (sl0.storePrevs prevs) (by
        intro i _ hi
        refine ⟨h3 i (by omega), L0.node_get iG q iS rfl i (by rw [hlv]; omega), _, L0.get_lastAt (by omega)⟩)
    have hout : prevAt prevs l = .panic := by
      have : prevs.length = l := by rw [h2, hlen]
      simp [prevAt, idx, List.getElem?_eq_none (Nat.le_of_eq this)]
    rw [hr, SL.unlink_add, u1]
    simp only [Outcome.ret_bind, Nat.zero_add, SL.unlink, hout]
    have hg := L0.node_get iG q iS rfl l (by rw [hlv]; omega)
    have hg1 : s1.get (.node q) l = some (firstAt sl0.lvl l iS) := by
      rw [u4 _ _ (by omega)]; exact hg
    rw [SL.nextAt_of_get hg1]; rfl

theorem SL.raiseHead_fields {p : Nat} : ∀ (rem i : Nat) {s t : SL K V}, SL.raiseHead p rem i s = .ret t → t.level = s.level ∧ t.len = s.len := by
  intro rem
  induction rem with
  | zero => intro i s t h; simp [SL.raiseHead] at h; rw [h]; exact ⟨rfl, rfl⟩
  | succ rem ih =>
    intro i s t h
    simp only [SL.raiseHead] at h
    cases hs : s.setNextAt .head i (some p) with
    | ret s1 =>
      rw [hs] at h
      obtain ⟨e1, e2⟩ := ih (i + 1) h
      obtain ⟨e3, e4⟩ := SL.setNextAt_fields hs
      exact ⟨e1.trans e3, e2.trans e4⟩
    | panic => rw [hs] at h; simp at h
    | diverge => rw [hs] at h; simp at h

/-- `Insert` of a copy made just now, of a new key, above the level of the list. -/
theorem SLInvD.copyInsert_above (hl : impl.Lawful) (h : SLInvD d impl.less sl ids m)
    (p : Pos impl.less sl ids m key iG [] iS G [] S) {rnd : Nat} (v : V) {l : Nat}
    (hr : sl.randomLevel rnd = .ret l) (h2 : sl.level < l) :
    ∃ sl' d', sl.copyInsert impl rnd { level := sl.level, len := sl.len } key v =
        .ret ({ sl' with level := sl.level, len := sl.len }, { level := l, len := sl.len + 1 }) ∧
      SLInvD d' impl.less sl' (iG ++ sl.nodes.length :: iS) (G ++ (key, v) :: S) ∧ sl'.lvl sl.nodes.length = l := by
  obtain ⟨prevs, hp, hprev, hf⟩ := h.findInsertPoint_miss hl p
  have hids : ids = iG ++ iS := by simpa using p.ids_eq
  obtain ⟨l', r1, r2, r3, _⟩ := SL.randomLevel_spec sl rnd
  have e1 : l' = l := by rw [hr] at r1; injection r1 with r1; exact r1.symm
  subst e1
  obtain ⟨s1, s2, sl', n1, n2, l1, l2, l3, c1, c2, c3, c4, _⟩ := h.link_at hids p.kG p.kS hp hprev v
    (SMap.sorted_put hl.weak h.sorted p.sp ⟨hl.weak.irrefl key, hl.weak.irrefl key⟩) r2 r3
  rw [if_pos (by omega)] at c1
  cases hx : SL.raiseHead sl.nodes.length (l' - s2.level) s2.level s2 with
  | ret s =>
    rw [hx] at c1
    simp only [Outcome.ret_bind] at c1
    injection c1 with c1
    obtain ⟨g1, g2⟩ := SL.raiseHead_fields _ _ hx
    have e2 : ({ sl' with level := sl.level, len := sl.len } : SL K V) = s := by
      have : ({ ({ sl' with len := s2.len } : SL K V) with level := sl.level, len := sl.len } : SL K V) = s := by
        rw [← c1, ← l2, ← g1, ← l3, ← g2]
      exact this
    have hr' : SL.randomLevel { sl.storePrevs prevs with len := sl.len } rnd = .ret l' := hr
    refine ⟨sl', d, ?_, c3, c4⟩
    rw [n2] at l1
    simp only [SL.copyInsert, hf, Outcome.ret_bind, hr', n1]
    rw [l1]
    simp only [Outcome.ret_bind]
    rw [if_pos h2, e2]
    rw [l2] at hx
    rw [hx]; rfl
  | panic => rw [hx] at c1; simp at c1
  | diverge => rw [hx] at c1; simp at c1

/-- The position of a key that was put in. -/
theorem SLInvD.pos_put (hl : impl.Lawful) {N : Nat} {v : V} (h : SLInvD d impl.less sl (iG ++ N :: iS) (G ++ (key, v) :: S))
    (sp : SSplit impl.less key m G [] S) (hG : iG.length = G.length) :
    Pos impl.less sl (iG ++ N :: iS) (G ++ (key, v) :: S) key iG [N] iS G [(key, v)] S := by
  have hk := h.kvs
  rw [List.map_append, List.map_append] at hk
  obtain ⟨k1, k2⟩ := List.append_inj hk (by simp [hG])
  rw [List.map_cons, List.map_cons] at k2
  injection k2 with k2 k3
  exact ⟨⟨rfl, sp.go, by simp [hl.weak.irrefl key], sp.stop, by simp⟩, rfl, k1, by simp [k2], k3⟩

end Stl4go
