import Verif.Spec.SkipListShape
import Verif.Proofs.SkipListLevels
import Verif.Proofs.SkipListMHist
import Verif.Proofs.SkipListMemory
/-! # A skip list is determined by its shape, as far as its operations can tell -/
namespace Stl4go
variable {K V τ : Type}

/-! ## The level of a list is that of its highest node -/

/-- The level is 1 or that of some node. -/
def Tight (sl : SL K V) (ids : List Nat) : Prop := sl.level = 1 ∨ sl.level ∈ ids.map sl.lvl

theorem SL.lowerLevel_top : ∀ (fuel : Nat) {s t : SL K V}, SL.lowerLevel fuel s = .ret t →
    t.level ≤ 1 ∨ ∃ p, t.headNext[t.level - 1]? = some (some p) := by
  intro fuel
  induction fuel with
  | zero => intro s t h; simp [SL.lowerLevel] at h
  | succ fuel ih =>
    intro s t h
    unfold SL.lowerLevel at h
    split at h
    · obtain ⟨p, h1, h⟩ := Outcome.bind_ret h
      cases p with
      | none => exact ih h
      | some q =>
        simp at h; subst h
        refine .inr ⟨q, ?_⟩
        unfold idx at h1
        split at h1
        · next e => injection h1 with h1; rw [e, h1]
        · exact nomatch h1
    · injection h with h; subst h; left; omega

section
variable {less : K → K → Bool} {impl : SLImpl K} {sl : SL K V} {ids : List Nat} {m : List (K × V)}

theorem SLInv.tight_top (h : SLInv less sl ids m) (ht : sl.level ≤ 1 ∨ ∃ p, sl.headNext[sl.level - 1]? = some (some p)) : Tight sl ids := by
  have h1 := h.level_pos
  rcases ht with ht | ⟨p, hp⟩
  · exact .inl (by omega)
  · right
    have h2 := h.linked.head_get (sl.level - 1) (by have := h.level_le; omega)
    simp only [SL.get] at h2
    rw [hp] at h2
    injection h2 with h2
    obtain ⟨P, Q, e, hl, _⟩ := firstAt_some h2.symm
    have hm : p ∈ ids := by rw [e]; simp
    have := h.lvl_le p hm
    exact List.mem_map.2 ⟨p, hm, by omega⟩

theorem SLInv.tight_keep {sl' : SL K V} {ids' : List Nat} {m' : List (K × V)} (h' : SLInv less sl' ids' m') (ht : Tight sl ids)
    (hl : sl'.level ≤ sl.level) (hs : ∀ l ∈ ids.map sl.lvl, l ∈ ids'.map sl'.lvl) : Tight sl' ids' := by
  have h1 := h'.level_pos
  rcases ht with ht | ht
  · exact .inl (by omega)
  · right
    have h2 := hs _ ht
    obtain ⟨p, hp, e⟩ := List.mem_map.1 h2
    have := h'.lvl_le p hp
    have e' : sl'.level = sl.level := by omega
    rw [e']; exact h2

theorem SLInv.exec_tight (hl : impl.Lawful) (h : SLInv impl.less sl ids m) (ht : Tight sl ids) {rnd : Nat} {op : SMOp K V} {sl' : SL K V}
    {ids' : List Nat} {m' : List (K × V)} {ob : SMObs K V} (hx : sl.exec impl rnd op = .ret (sl', ob)) (h' : SLInv impl.less sl' ids' m')
    (hlab : ids'.map sl'.lvl = relabel impl.less m (levelFor rnd m.length) (ids.map sl.lvl) op) : Tight sl' ids' := by
  have hlen : sl.len = m.length := by rw [h.len_eq, h.len_m]
  have hlv := SL.exec_levels h.level_pos hx
  have keep : (∀ k v, op ≠ .insert k v) → ids'.map sl'.lvl = ids.map sl.lvl → Tight sl' ids' := by
    intro hop e
    rcases hlv with hlow | ⟨k, v, l, rfl, _⟩
    · exact h'.tight_keep ht hlow.level (fun l hl => by rw [e]; exact hl)
    · exact absurd rfl (hop k v)
  cases op with
  | insert k v =>
    rcases hlv with hlow | ⟨_, _, l, _, hr, hg⟩
    · refine h'.tight_keep ht hlow.level (fun x hx => ?_)
      rw [hlab]
      simp only [relabel]
      split
      · exact hx
      · rw [← List.take_append_drop (m.filter (fun e => impl.less e.1 k)).length (ids.map sl.lvl)] at hx
        rcases List.mem_append.1 hx with hx | hx
        · exact List.mem_append_left _ hx
        · exact List.mem_append_right _ (List.mem_cons_of_mem _ hx)
    · rw [SL.randomLevel_eq hlen] at hr
      injection hr with hr
      obtain ⟨iG, iH, iS, G, H, S, p⟩ := h.pos hl k
      simp only [relabel, SMap.find_split p.sp] at hlab
      rcases p.cases with ⟨rfl, rfl⟩ | ⟨q, e, rfl, rfl, hkv⟩
      · simp at hlab
        have hlev := hg.level
        rcases Nat.lt_or_ge l sl.level with hlt | hge
        · refine h'.tight_keep ht (by omega) (fun x hx => ?_)
          rw [hlab]
          rw [← List.take_append_drop (m.filter (fun e => impl.less e.1 k)).length (ids.map sl.lvl)] at hx
          rcases List.mem_append.1 hx with hx | hx
          · exact List.mem_append_left _ hx
          · exact List.mem_append_right _ (List.mem_cons_of_mem _ hx)
        · right
          rw [hlab, show sl'.level = levelFor rnd m.length by omega]
          simp
      · exfalso
        obtain ⟨prevs, hp, hf, _⟩ := h.findInsertPoint_hit hl p
        simp only [SL.exec, SL.insert_eq, hf, Outcome.ret_bind] at hx
        obtain ⟨s2, h2, hx⟩ := Outcome.bind_ret hx
        simp at hx; obtain ⟨rfl, rfl⟩ := hx
        have := (SL.insertAt_levels h2 : SL.LFrame _ _).count
        have h3 := hg.count
        have : (sl.storePrevs prevs).nodes.length = sl.nodes.length := rfl
        omega
  | remove k =>
    obtain ⟨iG, iH, iS, G, H, S, p⟩ := h.pos hl k
    rcases p.cases with ⟨rfl, rfl⟩ | ⟨q, e, rfl, rfl, hkv⟩
    · refine keep (fun _ _ e => by simp at e) ?_
      rw [hlab]; simp [relabel, SMap.find_split p.sp]
    · obtain ⟨s1, a1, _⟩ := h.remove_hit hl p
      simp only [SL.exec, a1, Outcome.ret_bind] at hx
      simp at hx; obtain ⟨rfl, rfl⟩ := hx
      refine h'.tight_top ?_
      rw [SL.remove_eq] at a1
      obtain ⟨⟨s0, found⟩, _, a1⟩ := Outcome.bind_ret a1
      cases found with
      | none => simp [SL.removeAt] at a1
      | some f =>
        obtain ⟨f1, f2⟩ := f
        simp only [SL.removeAt] at a1
        obtain ⟨n, _, a1⟩ := Outcome.bind_ret a1
        obtain ⟨s3, _, a1⟩ := Outcome.bind_ret a1
        obtain ⟨s4, h4, a1⟩ := Outcome.bind_ret a1
        simp at a1; subst a1
        have := SL.lowerLevel_top _ h4
        exact this
  | clear =>
    simp [SL.exec] at hx; obtain ⟨rfl, rfl⟩ := hx
    exact .inl rfl
  | _ => exact keep (fun _ _ e => by simp at e) hlab

theorem SLInv.run_tight (hl : impl.Lawful) (h : List (Nat × SMOp K V)) : ∀ {sl : SL K V} {ids : List Nat} {m : List (K × V)},
    SLInv impl.less sl ids m → Tight sl ids →
    ∃ sl' ids' obs, SL.run impl sl h = .ret (sl', obs) ∧ SLInv impl.less sl' ids' (SMap.run impl.less m (opsOf h)).2 ∧ Tight sl' ids' := by
  induction h with
  | nil => intro sl ids m h ht; exact ⟨sl, ids, [], rfl, h, ht⟩
  | cons x h ih =>
    intro sl ids m hi ht
    obtain ⟨rnd, op⟩ := x
    obtain ⟨s1, i1, a1, a2, a3⟩ := hi.exec_labels hl rnd op
    obtain ⟨s2, i2, obs, b1, b2, b3⟩ := ih a2 (hi.exec_tight hl ht a1 a2 a3)
    refine ⟨s2, i2, (SMap.step impl.less m op).1 :: obs, ?_, b2, b3⟩
    simp only [SL.run, a1, Outcome.ret_bind, b1]; rfl

theorem tight_new : Tight (newSkipList : SL K V) [] := .inl rfl

theorem foldr_max_le (l : List Nat) : ∀ x ∈ l, x ≤ l.foldr max 1 := by
  induction l with
  | nil => simp
  | cons a l ih =>
    intro x hx
    simp only [List.foldr_cons]
    rcases List.mem_cons.1 hx with rfl | hx
    · exact Nat.le_max_left _ _
    · exact Nat.le_trans (ih x hx) (Nat.le_max_right _ _)

theorem foldr_max_ge {l : List Nat} {b : Nat} (hb : 1 ≤ b) (h : ∀ x ∈ l, x ≤ b) : l.foldr max 1 ≤ b := by
  induction l with
  | nil => exact hb
  | cons a l ih =>
    simp only [List.foldr_cons]
    exact Nat.max_le.2 ⟨h a (by simp), ih (fun x hx => h x (by simp [hx]))⟩

/-- The level as a function of the levels of the nodes. -/
theorem SLInv.level_eq (h : SLInv less sl ids m) (ht : Tight sl ids) : sl.level = (ids.map sl.lvl).foldr max 1 := by
  have h1 : (ids.map sl.lvl).foldr max 1 ≤ sl.level := foldr_max_ge h.level_pos (fun x hx => by
    obtain ⟨p, hp, rfl⟩ := List.mem_map.1 hx
    exact h.lvl_le p hp)
  rcases ht with ht | ht
  · have : 1 ≤ (ids.map sl.lvl).foldr max 1 := by
      generalize ids.map sl.lvl = l
      induction l with
      | nil => exact Nat.le_refl 1
      | cons a l ih => exact Nat.le_trans ih (Nat.le_max_right _ _)
    omega
  · have := foldr_max_le _ _ ht
    omega

theorem SLInv.highest (h : SLInv less sl ids m) : sl.highest = (ids.map sl.lvl).foldr max 1 := by
  rw [← h.entryNodes.1, SL.highest, List.foldr_map]

end

/-! ## The keys that a search looks at, from keys and levels alone -/

/-- Level and key of a node. -/
def SL.lab (sl : SL K V) (p : Nat) : Nat × Option K := (sl.lvl p, (sl.kv p).map Prod.fst)

/-- A walk on level `i` that has got to the front of `B0` and now looks at `B`: the keys, and what is ahead when it stops without a hit. -/
def pureWalk (dec : K → Dec) (i : Nat) (B0 : List (Nat × Option K)) : List (Nat × Option K) → List K × Option (List (Nat × Option K))
  | [] => ([], some B0)
  | (l, k) :: B =>
    if i < l then
      match k with
      | none => ([], none)
      | some k => match dec k with
        | .hit => ([k], none)
        | .stop => ([k], some B0)
        | .go => (k :: (pureWalk dec i B B).1, (pureWalk dec i B B).2)
    else pureWalk dec i B0 B

/-- The keys that a search on `i` levels looks at. -/
def pureOuter (dec : K → Dec) : Nat → List (Nat × Option K) → List K
  | 0, _ => []
  | i + 1, B => (pureWalk dec i B B).1 ++ match (pureWalk dec i B B).2 with
    | none => []
    | some B' => pureOuter dec i B'

theorem pureWalk_skip {dec : K → Dec} {i : Nat} {B0 P X : List (Nat × Option K)} (h : ∀ x ∈ P, ¬ i < x.1) :
    pureWalk dec i B0 (P ++ X) = pureWalk dec i B0 X := by
  induction P with
  | nil => rfl
  | cons x P ih =>
    obtain ⟨l, k⟩ := x
    simp only [List.cons_append, pureWalk]
    rw [if_neg (h (l, k) (by simp))]
    exact ih (fun y hy => h y (by simp [hy]))

section
variable {sl : SL K V} {ids : List Nat} {dec : K → Dec}

theorem walk_pure (L : Linked sl.get sl.lvl ids) {i : Nat} (hi : i < 40) : ∀ (fuel : Nat) (A B : List Nat) (r : Ref),
    ids = A ++ B → RefAt sl.lvl i A r → B.length < fuel →
    walkKeys dec sl i fuel (firstAt sl.lvl i B) = (pureWalk dec i (B.map sl.lab) (B.map sl.lab)).1 ∧
    (match (pureWalk dec i (B.map sl.lab) (B.map sl.lab)).2 with
      | none => ∃ p, walk dec sl i fuel r (firstAt sl.lvl i B) = .ret (.inl p)
      | some X => ∃ A2 B2 r2, ids = A2 ++ B2 ∧ X = B2.map sl.lab ∧ walk dec sl i fuel r (firstAt sl.lvl i B) = .ret (.inr r2) ∧
          RefAt sl.lvl i A2 r2) := by
  intro fuel
  induction fuel with
  | zero => intro A B r _ _ h; omega
  | succ fuel ih =>
    intro A B r e hr hf
    cases hc : firstAt sl.lvl i B with
    | none =>
      have hlow := firstAt_none.1 hc
      have hw : pureWalk dec i (B.map sl.lab) (B.map sl.lab) = ([], some (B.map sl.lab)) := by
        have := pureWalk_skip (dec := dec) (i := i) (B0 := B.map sl.lab) (P := B.map sl.lab) (X := []) (by
          intro x hx
          obtain ⟨p, hp, rfl⟩ := List.mem_map.1 hx
          have := hlow p hp
          show ¬ i < sl.lvl p
          omega)
        rw [List.append_nil] at this
        rw [this]; rfl
      rw [hw]
      exact ⟨by simp [walkKeys], A, B, r, e, rfl, by simp [walk], hr⟩
    | some c =>
      obtain ⟨P, Q, rfl, hic, hP⟩ := firstAt_some hc
      obtain ⟨⟨k, v⟩, hkv⟩ := SL.kv_of_lvl (sl := sl) (p := c) (by omega)
      obtain ⟨n, hn, hk, _⟩ := SL.kv_some hkv
      have hd : sl.deref c = .ret n := idx_of_get hn
      have hget := L.node_get (A ++ P) c Q (by rw [e]; simp) i hic
      rw [SL.get_node hn] at hget
      simp only at hk
      subst hk
      have hw : pureWalk dec i ((P ++ c :: Q).map sl.lab) ((P ++ c :: Q).map sl.lab) =
          match dec n.key with
          | .hit => ([n.key], none)
          | .stop => ([n.key], some ((P ++ c :: Q).map sl.lab))
          | .go => (n.key :: (pureWalk dec i (Q.map sl.lab) (Q.map sl.lab)).1, (pureWalk dec i (Q.map sl.lab) (Q.map sl.lab)).2) := by
        conv => lhs; arg 4; rw [List.map_append]
        rw [pureWalk_skip (by
          intro x hx
          obtain ⟨p, hp, rfl⟩ := List.mem_map.1 hx
          have := hP p hp
          show ¬ i < sl.lvl p
          omega), List.map_cons]
        simp only [SL.lab, hkv, Option.map_some, pureWalk]
        rw [if_pos hic]
      rw [hw]
      simp only [walkKeys, walk, hd, Outcome.ret_bind, idx_of_get hget]
      cases hdec : dec n.key with
      | hit => exact ⟨rfl, c, rfl⟩
      | stop => exact ⟨rfl, A, P ++ c :: Q, r, e, rfl, rfl, hr⟩
      | go =>
        have hr' : RefAt sl.lvl i (A ++ P ++ [c]) (.node c) := .inr ⟨A ++ P, c, rfl, rfl, hic⟩
        obtain ⟨h1, h2⟩ := ih (A ++ P ++ [c]) Q (.node c) (by rw [e]; simp) hr' (by simp at hf; omega)
        exact ⟨by simp only [h1], h2⟩

theorem outerKeys_pure (L : Linked sl.get sl.lvl ids) (hlen : ids.length ≤ sl.nodes.length) : ∀ (i : Nat) (A B : List Nat) (r : Ref),
    i ≤ 40 → ids = A ++ B → RefAt sl.lvl (i - 1) A r → outerKeys dec sl i r = pureOuter dec i (B.map sl.lab) := by
  intro i
  induction i with
  | zero => intro A B r _ _ _; rfl
  | succ i ih =>
    intro A B r hi e hr
    have hn := hr.next L (by omega) e
    simp only [Nat.add_sub_cancel] at hr hn
    obtain ⟨h1, h2⟩ := walk_pure (dec := dec) L (i := i) (by omega) (sl.nodes.length + 1) A B r e hr (by
      rw [e] at hlen; simp at hlen; omega)
    simp only [outerKeys, hn, pureOuter, h1]
    cases hx : (pureWalk dec i (B.map sl.lab) (B.map sl.lab)).2 with
    | none =>
      rw [hx] at h2
      obtain ⟨p, h2⟩ := h2
      simp only [h2]
    | some X =>
      rw [hx] at h2
      obtain ⟨A2, B2, r2, h3, rfl, h4, h5⟩ := h2
      simp only [h4, ih A2 B2 r2 (by omega) h3 (h5.lower (by omega))]

variable {less : K → K → Bool} {m : List (K × V)}

theorem SLInv.labs (h : SLInv less sl ids m) :
    ids.map sl.lab = List.zipWith (fun l k => (l, some k)) (ids.map sl.lvl) (m.map Prod.fst) := by
  have hk := h.kvs
  clear h
  induction ids generalizing m with
  | nil => cases m <;> simp at hk ⊢
  | cons p ids ih =>
    cases m with
    | nil => simp at hk
    | cons e m =>
      simp only [List.map_cons, List.cons.injEq] at hk
      simp only [List.map_cons, List.zipWith_cons_cons, SL.lab, hk.1, Option.map_some]
      exact congrArg _ (ih hk.2)

/-- The first key that is not less than `key`, if there is one. -/
def extraKey (less : K → K → Bool) (key : K) (ks : List K) : List K := (ks.drop (ks.filter (fun k => less k key)).length).head?.toList

theorem SLInv.keyOf_split {iG R : List Nat} {G S : List (K × V)} {key : K} (h : SLInv less sl ids m) (hi : ids = iG ++ R) (hm : m = G ++ S)
    (hG : iG.map sl.kv = G.map some) (hf : m.filter (fun e => less e.1 key) = G) :
    Stl4go.keyOf sl R.head? = extraKey less key (m.map Prod.fst) := by
  have hlen : ((m.map Prod.fst).filter (fun k => less k key)).length = G.length := by
    rw [List.filter_map, List.length_map]
    exact congrArg List.length hf
  have hR : R.map sl.kv = S.map some := by
    have := h.kvs
    rw [hi, hm, List.map_append, List.map_append, hG] at this
    exact List.append_cancel_left this
  rw [extraKey, hlen, hm, List.map_append, List.drop_left' (by simp)]
  cases R with
  | nil => cases S with
    | nil => rfl
    | cons e S => simp at hR
  | cons q R => cases S with
    | nil => simp at hR
    | cons e S =>
      simp only [List.map_cons, List.cons.injEq] at hR
      obtain ⟨n, hn, hk, _⟩ := SL.kv_some hR.1
      simp [Stl4go.keyOf, SL.deref, idx_of_get hn, hk]

end

section
variable {c : K → K → Int} {sl sl1 sl2 : SL K V} {ids ids1 ids2 : List Nat} {m m1 m2 : List (K × V)}

theorem SLInv.opExtra_eq (hc : LawfulCmp c) (h : SLInv (SLImpl.func c).less sl ids m) (op : SMOp K V) :
    Stl4go.opExtra c sl op = match op with
      | .remove k | .update k _ | .find k | .has k | .upperBound k => extraKey (SLImpl.func c).less k (m.map Prod.fst)
      | _ => [] := by
  have hl : (SLImpl.func c).Lawful := hc
  have hn : ∀ key, (match SL.lowerBoundF c sl key with | .ret p => Stl4go.keyOf sl p | _ => []) =
      extraKey (SLImpl.func c).less key (m.map Prod.fst) := by
    intro key
    obtain ⟨iG, iH, iS, G, H, S, p⟩ := h.pos hl key
    have e : SL.lowerBoundF c sl key = .ret (iH ++ iS).head? := h.lowerBound hl p
    simp only [e]
    exact h.keyOf_split p.ids_eq p.sp.eq p.kG (smaller_filter hl.weak p.sp)
  cases op with
  | remove k =>
    obtain ⟨iG, iH, iS, G, H, S, p⟩ := h.pos hl k
    obtain ⟨prevs, h1, h2, h3⟩ := h.findPrevNodes hl p
    have h0 := h.store h1
    have hx : (sl.storePrevs prevs).nextAt (lastAt sl.lvl 0 iG) 0 = .ret (iH ++ iS).head? := h0.next_G (iG := iG) (R := iH ++ iS) p.ids_eq
    have hp0 : prevAt prevs 0 = .ret (lastAt sl.lvl 0 iG) := prevAt_of_get (h2 0 h.level_pos)
    simp only [Stl4go.opExtra, removeNode, h3, hp0, Outcome.ret_bind, hx]
    exact h.keyOf_split p.ids_eq p.sp.eq p.kG (smaller_filter hl.weak p.sp)
  | update k v => exact hn k
  | find k => exact hn k
  | has k => exact hn k
  | upperBound k => exact hn k
  | _ => rfl

/-- Lists with the same keys on nodes of the same levels make the same calls. -/
theorem opCalls_alike (hc : LawfulCmp c) (h1 : SLInv (SLImpl.func c).less sl1 ids1 m1) (t1 : Tight sl1 ids1)
    (h2 : SLInv (SLImpl.func c).less sl2 ids2 m2) (t2 : Tight sl2 ids2) (hl : ids1.map sl1.lvl = ids2.map sl2.lvl)
    (hk : m1.map Prod.fst = m2.map Prod.fst) (op : SMOp K V) : opCalls c sl1 op = opCalls c sl2 op := by
  have hlev : sl1.level = sl2.level := by rw [h1.level_eq t1, h2.level_eq t2, hl]
  have ho : ∀ dec : K → Dec, outerKeys dec sl1 sl1.level .head = outerKeys dec sl2 sl2.level .head := by
    intro dec
    rw [outerKeys_pure h1.linked h1.count sl1.level [] ids1 .head h1.level_le rfl (.inl ⟨rfl, rfl⟩),
      outerKeys_pure h2.linked h2.count sl2.level [] ids2 .head h2.level_le rfl (.inl ⟨rfl, rfl⟩), h1.labs, h2.labs, hl, hk, hlev]
  rw [opCalls_eq, opCalls_eq]
  cases op.key? with
  | none => rfl
  | some key =>
    simp only [ho, h1.opExtra_eq hc, h2.opExtra_eq hc, hk]

/-! ## Two lists of the same shape go on alike -/

/-- Both lists store `m`, in nodes of the same levels. -/
def SameShape (less : K → K → Bool) (sl1 sl2 : SL K V) : Prop :=
  ∃ ids1 ids2 m, SLInv less sl1 ids1 m ∧ Tight sl1 ids1 ∧ SLInv less sl2 ids2 m ∧ Tight sl2 ids2 ∧ ids1.map sl1.lvl = ids2.map sl2.lvl

theorem SLInv.towers {less : K → K → Bool} (h : SLInv less sl ids m) : sl.towers.map Prod.snd = ids.map sl.lvl ∧ sl.towers.map Prod.fst = m.map Prod.fst := by
  obtain ⟨h1, h2⟩ := h.entryNodes
  rw [← h1, ← h2]
  simp [SL.towers, Function.comp_def]

theorem SLInv.shape {less : K → K → Bool} (h : SLInv less sl ids m) : sl.shape = List.zipWith (fun e l => (e.1, e.2, l)) m (ids.map sl.lvl) := by
  obtain ⟨h1, h2⟩ := h.entryNodes
  rw [← h1, ← h2, SL.shape, List.zipWith_map, List.zipWith_self]

theorem zip_inj {A B C : Type} {f : A → B → C} (hf : ∀ a a' b b', f a b = f a' b' → a = a' ∧ b = b') : ∀ {l1 l2 : List A} {r1 r2 : List B},
    l1.length = r1.length → l2.length = r2.length → List.zipWith f l1 r1 = List.zipWith f l2 r2 → l1 = l2 ∧ r1 = r2 := by
  intro l1
  induction l1 with
  | nil =>
    intro l2 r1 r2 h1 h2 h
    cases r1 with
    | cons _ _ => simp at h1
    | nil => cases l2 with
      | nil => cases r2 with
        | nil => exact ⟨rfl, rfl⟩
        | cons _ _ => simp at h2
      | cons _ _ => cases r2 with
        | nil => simp at h2
        | cons _ _ => simp at h
  | cons a l1 ih =>
    intro l2 r1 r2 h1 h2 h
    cases r1 with
    | nil => simp at h1
    | cons b r1 => cases l2 with
      | nil => simp at h
      | cons a' l2 => cases r2 with
        | nil => simp at h2
        | cons b' r2 =>
          simp only [List.zipWith_cons_cons, List.cons.injEq] at h
          obtain ⟨rfl, rfl⟩ := hf _ _ _ _ h.1
          simp only [List.length_cons, Nat.add_right_cancel_iff] at h1 h2
          obtain ⟨rfl, rfl⟩ := ih h1 h2 h.2
          exact ⟨rfl, rfl⟩

theorem SameShape.of_shape {less : K → K → Bool} (h1 : SLInv less sl1 ids1 m1) (t1 : Tight sl1 ids1) (h2 : SLInv less sl2 ids2 m2)
    (t2 : Tight sl2 ids2) (h : sl1.shape = sl2.shape) : SameShape less sl1 sl2 := by
  rw [h1.shape, h2.shape] at h
  obtain ⟨rfl, e⟩ := zip_inj (fun a a' b b' h => by
    simp only [Prod.mk.injEq] at h
    exact ⟨Prod.ext h.1 h.2.1, h.2.2⟩) (by rw [List.length_map, h1.len_m]) (by rw [List.length_map, h2.len_m]) h
  exact ⟨ids1, ids2, m1, h1, t1, h2, t2, e⟩

theorem SameShape.shape {less : K → K → Bool} (h : SameShape less sl1 sl2) : sl1.shape = sl2.shape := by
  obtain ⟨ids1, ids2, m, h1, _, h2, _, e⟩ := h
  rw [h1.shape, h2.shape, e]

theorem SameShape.cache {less : K → K → Bool} (h : SameShape less sl1 sl2) {c1 c2 : List (Option Ref)} (e1 : c1.length = sl1.prevsCache.length)
    (e2 : c2.length = sl2.prevsCache.length) : SameShape less { sl1 with prevsCache := c1 } { sl2 with prevsCache := c2 } := by
  obtain ⟨ids1, ids2, m, h1, t1, h2, t2, e⟩ := h
  exact ⟨ids1, ids2, m, { h1 with cache_len := by show c1.length = 40; rw [e1, h1.cache_len] }, t1,
    { h2 with cache_len := by show c2.length = 40; rw [e2, h2.cache_len] }, t2, e⟩

variable {cmp : CmpM K τ}

/-- The two runs end in the same way. -/
def SameEnd (less : K → K → Bool) {α : Type} : Res (SLS K V τ) α → Res (SLS K V τ) α → Prop
  | .ok a s, .ok a' s' => a = a' ∧ s.st = s'.st ∧ SameShape less s.sl s'.sl
  | .panic s, .panic s' => s.st = s'.st ∧ SameShape less s.sl s'.sl
  | .diverge, .diverge => True
  | _, _ => False

theorem SameShape.exec (hc : LawfulCmp c) (ha : AgreesWith cmp c) (h : SameShape (SLImpl.func c).less sl1 sl2) (rnd : Nat) (op : SMOp K V) (t : τ) :
    SameEnd (SLImpl.func c).less (SLM.exec cmp rnd op ⟨sl1, t⟩) (SLM.exec cmp rnd op ⟨sl2, t⟩) := by
  have hl : (SLImpl.func c).Lawful := hc
  have h' := h
  obtain ⟨ids1, ids2, m, h1, t1, h2, t2, e⟩ := h
  obtain ⟨s1, i1, a1, a2, a3⟩ := h1.exec_labels hl rnd op
  obtain ⟨s2, i2, b1, b2, b3⟩ := h2.exec_labels hl rnd op
  have f1 := exec_follows ha t a1
  have f2 := exec_follows ha t b1
  rw [opCalls_alike hc h1 t1 h2 t2 e rfl] at f1
  unfold Follows at f1 f2
  simp only at f1 f2
  cases ec : callAll cmp (opCalls c sl2 op) t with
  | ok u t' =>
    simp only [ec] at f1 f2
    rw [f1, f2]
    exact ⟨rfl, rfl, i1, i2, _, a2, h1.exec_tight hl t1 a1 a2 a3, b2, h2.exec_tight hl t2 b1 b2 b3, by rw [a3, b3, e]⟩
  | panic t' =>
    simp only [ec] at f1 f2
    obtain ⟨c1, g1, f1⟩ := f1
    obtain ⟨c2, g2, f2⟩ := f2
    rw [f1, f2]
    exact ⟨rfl, h'.cache g1 g2⟩
  | diverge =>
    simp only [ec] at f1 f2
    rw [f1, f2]
    trivial

theorem SameShape.run (hc : LawfulCmp c) (ha : AgreesWith cmp c) (hs : List (Nat × SMOp K V)) : ∀ {sl1 sl2 : SL K V} (t : τ),
    SameShape (SLImpl.func c).less sl1 sl2 →
    (SLM.run cmp ⟨sl1, t⟩ hs).1 = (SLM.run cmp ⟨sl2, t⟩ hs).1 ∧ (SLM.run cmp ⟨sl1, t⟩ hs).2.st = (SLM.run cmp ⟨sl2, t⟩ hs).2.st ∧
      SameShape (SLImpl.func c).less (SLM.run cmp ⟨sl1, t⟩ hs).2.sl (SLM.run cmp ⟨sl2, t⟩ hs).2.sl := by
  induction hs with
  | nil => intro sl1 sl2 t h; exact ⟨rfl, rfl, h⟩
  | cons x hs ih =>
    intro sl1 sl2 t h
    obtain ⟨rnd, op⟩ := x
    have he := h.exec hc ha rnd op t
    simp only [SLM.run]
    cases e1 : SLM.exec cmp rnd op ⟨sl1, t⟩ with
    | ok a s =>
      cases e2 : SLM.exec cmp rnd op ⟨sl2, t⟩ with
      | ok a' s' =>
        simp only [e1, e2, SameEnd] at he
        obtain ⟨sl', t'⟩ := s
        obtain ⟨sl'', t''⟩ := s'
        obtain ⟨rfl, e3, e4⟩ := he
        simp only at e3; subst e3
        obtain ⟨i1, i2, i3⟩ := ih t' e4
        exact ⟨by simp only [i1], i2, i3⟩
      | panic s' => simp only [e1, e2, SameEnd] at he
      | diverge => simp only [e1, e2, SameEnd] at he
    | panic s =>
      cases e2 : SLM.exec cmp rnd op ⟨sl2, t⟩ with
      | ok a' s' => simp only [e1, e2, SameEnd] at he
      | panic s' =>
        simp only [e1, e2, SameEnd] at he
        obtain ⟨sl', t'⟩ := s
        obtain ⟨sl'', t''⟩ := s'
        obtain ⟨e3, e4⟩ := he
        simp only at e3; subst e3
        obtain ⟨i1, i2, i3⟩ := ih t' e4
        exact ⟨by simp only [i1], i2, i3⟩
      | diverge => simp only [e1, e2, SameEnd] at he
    | diverge =>
      cases e2 : SLM.exec cmp rnd op ⟨sl2, t⟩ with
      | ok a' s' => simp only [e1, e2, SameEnd] at he
      | panic s' => simp only [e1, e2, SameEnd] at he
      | diverge => exact ⟨rfl, rfl, h⟩

/-- Whatever the compare function has done, the list is in order. -/
theorem history_tight (hc : LawfulCmp c) (ha : AgreesWith cmp c) (hs : List (Nat × SMOp K V)) (t : τ) :
    ∃ ids m, SLInv (SLImpl.func c).less (SLM.run cmp ⟨newSkipList, t⟩ hs).2.sl ids m ∧ Tight (SLM.run cmp ⟨newSkipList, t⟩ hs).2.sl ids := by
  have h0 : SameShape (SLImpl.func c).less (newSkipList : SL K V) newSkipList := ⟨[], [], [], SLInv.new _, tight_new, SLInv.new _, tight_new, rfl⟩
  obtain ⟨_, _, ids, _, m, h1, t1, _⟩ := h0.run hc ha hs t
  exact ⟨ids, m, h1, t1⟩

/-- The calls that an operation records are those that it `Follows`. -/
def recorded {α : Type} : Res (τ × List (K × K)) α → Option (List (K × K))
  | .ok _ t => some t.2
  | .panic t => some t.2
  | .diverge => none

theorem Follows.callsOf {α : Type} {cmp : CmpM K (τ × List (K × K))} {ps : List (K × K)} {x : GoM (SLS K V (τ × List (K × K))) α}
    {s : SLS K V (τ × List (K × K))} {sl' : SL K V} {a : α} (h : Follows cmp ps x s sl' a) : callsOf (x s) = recorded (callAll cmp ps s.st) := by
  unfold Follows at h
  cases e : callAll cmp ps s.st with
  | ok u t => simp only [e] at h; rw [h]; rfl
  | panic t => simp only [e] at h; obtain ⟨c, _, h⟩ := h; rw [h]; rfl
  | diverge => simp only [e] at h; rw [h]; rfl

/-- Inserting a new key and removing it again. -/
theorem SLInv.detour {impl : SLImpl K} (hl : impl.Lawful) (h : SLInv impl.less sl ids m) {k : K} (hk : sl.has impl k = .ret false)
    (r1 r2 : Nat) (v : V) :
    ∃ sl' ids', SL.run impl sl [(r1, .insert k v), (r2, .remove k)] = .ret (sl', [.unit, .flag true]) ∧ SLInv impl.less sl' ids' m ∧
      ids'.map sl'.lvl = ids.map sl.lvl := by
  obtain ⟨iG, iH, iS, G, H, S, p⟩ := h.pos hl k
  have hf := h.findNode hl p
  rcases p.cases with ⟨rfl, rfl⟩ | ⟨q, e, rfl, rfl, hkv⟩
  · have hw := hl.weak
    obtain ⟨s1, i1, a1, a2, a3⟩ := h.exec_labels hl r1 (.insert k v)
    obtain ⟨s2, i2, b1, b2, b3⟩ := a2.exec_labels hl r2 (.remove k)
    have hm : m = G ++ S := by simpa using p.sp.eq
    have sp' : SSplit impl.less k (G ++ (k, v) :: S) G [(k, v)] S :=
      ⟨by simp, p.sp.go, fun e he => by simp at he; subst he; exact ⟨hw.irrefl k, hw.irrefl k⟩, p.sp.stop, by simp⟩
    simp only [SMap.step, SMap.insert_miss hw p.sp, SMap.find_split sp', SMap.erase_split sp', relabel, SMap.find_split p.sp,
      smaller_filter hw sp', smaller_filter hw p.sp] at a1 a2 a3 b1 b2 b3
    refine ⟨s2, i2, ?_, by rw [hm]; exact b2, ?_⟩
    · simp only [SL.run, a1, b1, Outcome.ret_bind]; rfl
    · have hG : G.length ≤ (ids.map sl.lvl).length := by
        have := h.len_m; rw [hm] at this; simp at this ⊢; omega
      simp only [List.head?_nil, Option.map_none, Option.isSome_none, Bool.false_eq_true, if_false, List.head?_cons, Option.map_some,
        Option.isSome_some, if_true] at a3 b3
      rw [b3, a3, List.take_append_of_le_length (by simp; simpa using hG), List.take_take, Nat.min_self]
      have : ((ids.map sl.lvl).take G.length).length = G.length := by rw [List.length_take]; omega
      rw [List.drop_append, this, List.drop_of_length_le (by omega)]
      simp
  · simp [SL.has, hf] at hk

end
end Stl4go
