import Verif.Proofs.Retained
/-! # Which nodes a skip list holds -/
namespace Stl4go
variable {K V : Type} {α β : Type}

private theorem bind_ret_inv {x : Outcome α} {f : α → Outcome β} {b : β} (h : (x >>= f) = .ret b) : ∃ a, x = .ret a ∧ f a = .ret b := by
  cases x with
  | ret a => exact ⟨a, rfl, h⟩
  | panic => cases h
  | diverge => cases h

/-! ## What the linking loops leave alone -/

/-- The cache and the number of levels of the nodes are the same. -/
structure SL.Keep (sl sl' : SL K V) : Prop where
  cache : sl'.prevsCache = sl.prevsCache
  count : sl.nodes.length ≤ sl'.nodes.length
  lvl : ∀ p, p < sl.nodes.length → sl'.lvl p = sl.lvl p

theorem SL.Keep.rfl' {sl : SL K V} : SL.Keep sl sl := ⟨rfl, Nat.le_refl _, fun _ _ => rfl⟩

theorem SL.Keep.trans {a b c : SL K V} (h : SL.Keep a b) (g : SL.Keep b c) : SL.Keep a c :=
  ⟨g.cache.trans h.cache, Nat.le_trans h.count g.count, fun p hp => (g.lvl p (Nat.lt_of_lt_of_le hp h.count)).trans (h.lvl p hp)⟩

theorem SL.setNextAt_keep {sl sl' : SL K V} {r : Ref} {i : Nat} {v : Option Nat} (h : sl.setNextAt r i v = .ret sl') : SL.Keep sl sl' := by
  cases r with
  | head =>
    obtain ⟨a, _, h⟩ := bind_ret_inv h
    injection h with h; subst h
    exact ⟨rfl, Nat.le_refl _, fun _ _ => rfl⟩
  | node p =>
    obtain ⟨n, hn, h⟩ := bind_ret_inv h
    obtain ⟨nx, hx, h⟩ := bind_ret_inv h
    injection h with h; subst h
    have hn' : sl.nodes[p]? = some n := by
      simp only [SL.deref, idx] at hn
      split at hn
      · next e => injection hn with hn; rw [← hn]; exact e
      · cases hn
    have hl : nx.length = n.next.length := by
      simp only [setIdx] at hx
      split at hx
      · injection hx with hx; rw [← hx]; simp
      · cases hx
    refine ⟨rfl, by simp, fun q _ => ?_⟩
    obtain ⟨hp, _⟩ := List.getElem?_eq_some_iff.1 hn'
    by_cases hq : p = q
    · subst hq; simp only [SL.lvl, hn']; rw [List.getElem?_set_self hp]; exact hl
    · simp only [SL.lvl]; rw [List.getElem?_set_ne hq]

theorem SL.setValue_keep {sl sl' : SL K V} {p : Nat} {v : V} (h : sl.setValue p v = .ret sl') : SL.Keep sl sl' := by
  obtain ⟨n, hn, h⟩ := bind_ret_inv h
  injection h with h; subst h
  have hn' : sl.nodes[p]? = some n := by
    simp only [SL.deref, idx] at hn
    split at hn
    · next e => injection hn with hn; rw [← hn]; exact e
    · cases hn
  refine ⟨rfl, by simp, fun q _ => ?_⟩
  obtain ⟨hp, _⟩ := List.getElem?_eq_some_iff.1 hn'
  by_cases hq : p = q
  · subst hq; simp only [SL.lvl, hn']; rw [List.getElem?_set_self hp]
  · simp only [SL.lvl]; rw [List.getElem?_set_ne hq]

theorem SL.newNode_keep {sl sl' : SL K V} {l N : Nat} {k : K} {v : V} (h : sl.newNode l k v = .ret (sl', N)) : SL.Keep sl sl' := by
  unfold SL.newNode at h
  split at h
  · injection h with h; injection h with h _; subst h
    refine ⟨rfl, by simp, fun p hp => ?_⟩
    simp only [SL.lvl]; rw [List.getElem?_append_left hp]
  · cases h

theorem SL.insertLinks_keep {N : Nat} {prevs : List (Option Ref)} (rem : Nat) : ∀ {i : Nat} {sl sl' : SL K V},
    SL.insertLinks N prevs rem i sl = .ret sl' → SL.Keep sl sl' := by
  induction rem with
  | zero => intro i sl sl' h; injection h with h; subst h; exact .rfl'
  | succ rem ih =>
    intro i sl sl' h
    obtain ⟨_, _, h⟩ := bind_ret_inv h
    obtain ⟨_, _, h⟩ := bind_ret_inv h
    obtain ⟨_, h1, h⟩ := bind_ret_inv h
    obtain ⟨_, h2, h⟩ := bind_ret_inv h
    exact ((SL.setNextAt_keep h1).trans (SL.setNextAt_keep h2)).trans (ih h)

theorem SL.raiseHead_keep {N : Nat} (rem : Nat) : ∀ {i : Nat} {sl sl' : SL K V},
    SL.raiseHead N rem i sl = .ret sl' → SL.Keep sl sl' := by
  induction rem with
  | zero => intro i sl sl' h; injection h with h; subst h; exact .rfl'
  | succ rem ih =>
    intro i sl sl' h
    obtain ⟨_, h1, h⟩ := bind_ret_inv h
    exact (SL.setNextAt_keep h1).trans (ih h)

theorem SL.unlink_keep {N : Nat} {prevs : List (Option Ref)} (rem : Nat) : ∀ {i : Nat} {sl sl' : SL K V},
    SL.unlink N prevs rem i sl = .ret sl' → SL.Keep sl sl' := by
  induction rem with
  | zero => intro i sl sl' h; injection h with h; subst h; exact .rfl'
  | succ rem ih =>
    intro i sl sl' h
    obtain ⟨_, _, h⟩ := bind_ret_inv h
    obtain ⟨_, _, h⟩ := bind_ret_inv h
    obtain ⟨_, h1, h⟩ := bind_ret_inv h
    exact (SL.setNextAt_keep h1).trans (ih h)

theorem SL.lowerLevel_keep (fuel : Nat) : ∀ {sl sl' : SL K V}, SL.lowerLevel fuel sl = .ret sl' → SL.Keep sl sl' := by
  induction fuel with
  | zero => intro sl sl' h; cases h
  | succ fuel ih =>
    intro sl sl' h
    unfold SL.lowerLevel at h
    split at h
    · obtain ⟨a, _, h⟩ := bind_ret_inv h
      split at h
      · have := ih h
        exact ⟨this.cache, this.count, this.lvl⟩
      · injection h with h; subst h; exact .rfl'
    · injection h with h; subst h; exact .rfl'

variable {impl : SLImpl K} {sl sl' : SL K V}

/-- `Insert` changes the cache only while it looks for the place. -/
theorem SL.insert_keep {rnd : Nat} {key : K} {v : V} {s : SL K V} {node : Option Nat} {prevs : List (Option Ref)}
    (hf : sl.findInsertPoint impl key = .ret (s, node, prevs)) (h : sl.insert impl rnd key v = .ret sl') : SL.Keep s sl' := by
  simp only [SL.insert, hf, Outcome.ret_bind] at h
  cases node with
  | some p => exact SL.setValue_keep h
  | none =>
    obtain ⟨l, _, h⟩ := bind_ret_inv h
    obtain ⟨⟨s1, N⟩, h1, h⟩ := bind_ret_inv h
    obtain ⟨s2, h2, h⟩ := bind_ret_inv h
    have k2 := (SL.newNode_keep h1).trans (SL.insertLinks_keep _ h2)
    split at h
    · simp only [pure_bind] at h
      obtain ⟨s3, h3, h⟩ := bind_ret_inv h
      injection h with h; subst h
      have := k2.trans (SL.raiseHead_keep _ h3)
      exact ⟨this.cache, this.count, this.lvl⟩
    · simp only [pure_bind] at h
      injection h with h; subst h
      exact ⟨k2.cache, k2.count, k2.lvl⟩

/-- `Remove` changes the cache only while it looks for the place. -/
theorem SL.remove_keep {key : K} {b : Bool} {s : SL K V} {prevs : List (Option Ref)}
    (hf : sl.findPrevNodes impl key = .ret (s, prevs)) (h : sl.remove impl key = .ret (sl', b)) : SL.Keep s sl' := by
  simp only [SL.remove, SL.findRemovePoint, hf, Outcome.ret_bind] at h
  obtain ⟨⟨s1, o⟩, h1, h⟩ := bind_ret_inv h
  have e1 : s1 = s := by
    obtain ⟨_, _, h1⟩ := bind_ret_inv h1
    obtain ⟨r, _, h1⟩ := bind_ret_inv h1
    cases r with
    | none => injection h1 with h1; injection h1 with h1; exact h1.symm
    | some p =>
      obtain ⟨n, _, h1⟩ := bind_ret_inv h1
      split at h1 <;> (injection h1 with h1; injection h1 with h1; exact h1.symm)
  subst e1
  cases o with
  | none => injection h with h; injection h with h; subst h; exact .rfl'
  | some x =>
    obtain ⟨p, prevs'⟩ := x
    obtain ⟨n, _, h⟩ := bind_ret_inv h
    obtain ⟨s2, h2, h⟩ := bind_ret_inv h
    obtain ⟨s3, h3, h⟩ := bind_ret_inv h
    injection h with h; injection h with h; subst h
    have := (SL.unlink_keep _ h2).trans (SL.lowerLevel_keep _ h3)
    exact ⟨this.cache, this.count, this.lvl⟩

theorem SL.store_lvl (sl : SL K V) (prevs : List (Option Ref)) (p : Nat) : (sl.storePrevs prevs).lvl p = sl.lvl p := rfl

theorem SL.store_get {sl : SL K V} {prevs : List (Option Ref)} (i : Nat) :
    (sl.storePrevs prevs).prevsCache[i]? = if i < prevs.length then prevs[i]? else sl.prevsCache[i]? := by
  simp only [SL.storePrevs]
  split
  · next h => rw [List.getElem?_append_left h]
  · next h =>
    rw [List.getElem?_append_right (by omega), List.getElem?_drop]
    congr 1; omega

/-! ## The held nodes -/

/-- The cache points to stored nodes or to nodes of `D`; the links of the nodes of `D` stay inside `D`. -/
structure SLHold (sl : SL K V) (ids : List Nat) (D : Nat → Prop) : Prop where
  cache : ∀ i p : Nat, sl.prevsCache[i]? = some (some (.node p)) → (p ∈ ids ∧ i < sl.lvl p) ∨ D p
  links : ∀ p, D p → ∀ i q : Nat, sl.get (.node p) i = some (some q) → D q
  old : ∀ p, D p → p < sl.nodes.length ∧ p ∉ ids

variable {ids : List Nat} {m : List (K × V)} {D : Nat → Prop}

theorem SL.next_iff {p q i : Nat} : sl.get (.node p) i = some (some q) ↔ ∃ n, sl.nodes[p]? = some n ∧ n.next[i]? = some (some q) := by
  simp [SL.get, Option.bind_eq_some_iff]

theorem firstAt_mem {lvl : Nat → Nat} {i c : Nat} {B : List Nat} (h : firstAt lvl i B = some c) : c ∈ B := by
  obtain ⟨P, Q, rfl, _⟩ := firstAt_some h; simp

theorem SL.lvl_of_get {p i : Nat} {o : Option Nat} (h : sl.get (.node p) i = some o) : i < sl.lvl p := by
  simp only [SL.get, Option.bind_eq_some_iff] at h
  obtain ⟨n, hn, h⟩ := h
  simp only [SL.lvl, hn]
  exact (List.getElem?_eq_some_iff.1 h).1

theorem SLInv.link_mem {less : K → K → Bool} (h : SLInv less sl ids m) {p q i : Nat} (hp : p ∈ ids)
    (hq : sl.get (.node p) i = some (some q)) : q ∈ ids := by
  obtain ⟨A, B, e⟩ := List.append_of_mem hp
  have := h.linked.node_get A p B e i (SL.lvl_of_get hq)
  rw [this] at hq
  injection hq with hq
  rw [e]; simp [firstAt_mem hq]

theorem SLInv.head_mem {less : K → K → Bool} (h : SLInv less sl ids m) {p i : Nat} (hp : sl.headNext[i]? = some (some p)) : p ∈ ids := by
  have hi : i < 40 := by rw [← h.head_len]; exact (List.getElem?_eq_some_iff.1 hp).1
  have := h.linked.head_get i hi
  simp only [SL.get] at this
  rw [hp] at this
  injection this with this
  exact firstAt_mem this.symm

theorem SLInv.visits {less : K → K → Bool} (h : SLInv less sl ids m) (p : Nat) : sl.Visits p ↔ p ∈ ids := by
  constructor
  · intro hp
    refine Reach.closed (S := fun p => p ∈ ids) (fun p hp => h.head_mem hp) ?_ hp
    rintro p q hp hq
    exact h.link_mem hp (SL.next_iff.2 hq)
  · intro hp
    suffices ∀ (B A : List Nat), ids = A ++ B → (∀ q, B.head? = some q → sl.Visits q) → ∀ p ∈ B, sl.Visits p by
      refine this ids [] rfl (fun q hq => .root ?_) p hp
      have := h.linked.head_get 0 (by omega)
      rw [h.firstAt_zero (fun _ h => h), hq] at this
      exact this
    intro B
    induction B with
    | nil => intro _ _ _ p hp; simp at hp
    | cons x B ih =>
      intro A e h0 p hp
      have hx := h0 x rfl
      rcases List.mem_cons.1 hp with rfl | hp
      · exact hx
      · refine ih (A ++ [x]) (by rw [e]; simp) (fun q hq => ?_) p hp
        refine .step hx (SL.next_iff.1 ?_)
        rw [h.linked.node_get A x B e 0 (h.lvl_pos x (by rw [e]; simp)), h.firstAt_zero (fun y hy => by rw [e]; simp [hy]), hq]

theorem SL.holds_of_visits {p : Nat} (h : sl.Visits p) : sl.Retains p := by
  induction h with
  | root h => exact .root ⟨0, .inl h⟩
  | step _ h ih => obtain ⟨n, h1, h2⟩ := h; exact .step ih ⟨n, 0, h1, h2⟩

/-- The held nodes are stored nodes, or nodes of `D`. -/
theorem SLHold.holds {less : K → K → Bool} (g : SLHold sl ids D) (h : SLInv less sl ids m) {p : Nat} (hp : sl.Retains p) : p ∈ ids ∨ D p := by
  refine Reach.closed (S := fun p => p ∈ ids ∨ D p) ?_ ?_ hp
  · rintro p ⟨i, hi | hi⟩
    · exact .inl (h.head_mem hi)
    · rcases g.cache i p hi with h | h
      · exact .inl h.1
      · exact .inr h
  · rintro p q hp ⟨n, i, h1, h2⟩
    have hq : sl.get (.node p) i = some (some q) := SL.next_iff.2 ⟨n, h1, h2⟩
    rcases hp with hp | hp
    · exact .inl (h.link_mem hp hq)
    · exact .inr (g.links p hp i q hq)

/-- The cache after a search for the place of a key. -/
theorem SLHold.store (g : SLHold sl ids D) {iG prevs} (hG : ∀ x ∈ iG, x ∈ ids)
    (hp : prevs.length = sl.level)
    (hprev : ∀ x, x < sl.level → prevs[x]? = sl.prevsCache[x]? ∨ prevs[x]? = some (some (lastAt sl.lvl x iG))) :
    SLHold (sl.storePrevs prevs) ids D := by
  refine ⟨fun i p hi => ?_, fun p hp i q hq => g.links p hp i q (by rw [← hq]; rfl), g.old⟩
  rw [SL.store_get, hp] at hi
  split at hi
  · next hlt =>
    rcases hprev i hlt with e | e
    · rw [e] at hi; exact g.cache i p hi
    · rw [e] at hi
      injection hi with hi; injection hi with hi
      obtain ⟨h1, h2⟩ := lastAt_node_mem hi
      exact .inl ⟨hG p h1, h2⟩
  · exact g.cache i p hi

/-- After a full search, no slot of the cache holds a stored node outside `iG`. -/
theorem SLHold.store_full {less : K → K → Bool} (g : SLHold sl ids D) (h : SLInv less sl ids m) {iG prevs} 
    (hp : prevs.length = sl.level) (hprev : ∀ x, x < sl.level → prevs[x]? = some (some (lastAt sl.lvl x iG))) :
    ∀ i p : Nat, (sl.storePrevs prevs).prevsCache[i]? = some (some (.node p)) → (p ∈ iG ∧ i < sl.lvl p) ∨ D p := by
  intro i p hi
  rw [SL.store_get, hp] at hi
  split at hi
  · next hlt =>
    rw [hprev i hlt] at hi
    injection hi with hi; injection hi with hi
    obtain ⟨h1, h2⟩ := lastAt_node_mem hi
    exact .inl ⟨h1, h2⟩
  · next hge =>
    rcases g.cache i p hi with ⟨h1, h2⟩ | h1
    · have := h.lvl_le p h1; omega
    · exact .inr h1

theorem SL.kv_lt {p : Nat} : (sl.kv p).isSome ↔ p < sl.nodes.length := by
  simp [SL.kv]

/-- One operation, with what it does to the held nodes. `Clear` moves the stored nodes to `D`. -/
theorem SLHold.exec (hl : impl.Lawful) (g : SLHold sl ids D) (h : SLInv impl.less sl ids m) (rnd : Nat) (op : SMOp K V) :
    ∃ sl' ids', sl.exec impl rnd op = .ret (sl', (SMap.step impl.less m op).1) ∧
      SLInv impl.less sl' ids' (SMap.step impl.less m op).2 ∧
      SLHold sl' ids' (fun p => D p ∨ (op = .clear ∧ p ∈ ids)) ∧ sl.nodes.length ≤ sl'.nodes.length ∧
      (∀ p, p < sl.nodes.length → p ∈ ids' → p ∈ ids) ∧
      (∀ k, op = .remove k → ∀ p ∈ ids', ∀ e, sl'.kv p = some e → impl.less e.1 k = true ∨ impl.less k e.1 = true) := by
  have same : SLHold sl ids (fun p => D p ∨ (op = .clear ∧ p ∈ ids)) → op ≠ .clear → SLHold sl ids D := by
    intro g _; assumption
  have lift : ∀ {s : SL K V} {is : List Nat}, op ≠ .clear → SLHold s is D → SLHold s is (fun p => D p ∨ (op = .clear ∧ p ∈ ids)) := by
    intro s is hne g
    have : (fun p => D p ∨ (op = .clear ∧ p ∈ ids)) = D := by funext p; simp [hne]
    rw [this]; exact g
  have idle : ∀ {ob}, (∀ k, op ≠ .remove k) → op ≠ .clear → sl.exec impl rnd op = .ret (sl, ob) →
      (SMap.step impl.less m op).2 = m → ∃ sl' ids', sl.exec impl rnd op = .ret (sl', (SMap.step impl.less m op).1) ∧
      SLInv impl.less sl' ids' (SMap.step impl.less m op).2 ∧
      SLHold sl' ids' (fun p => D p ∨ (op = .clear ∧ p ∈ ids)) ∧ sl.nodes.length ≤ sl'.nodes.length ∧
      (∀ p, p < sl.nodes.length → p ∈ ids' → p ∈ ids) ∧
      (∀ k, op = .remove k → ∀ p ∈ ids', ∀ e, sl'.kv p = some e → impl.less e.1 k = true ∨ impl.less k e.1 = true) := by
    intro ob h1 h2 h3 h4
    obtain ⟨sl', ids', a1, _⟩ := h.exec hl rnd op
    have : sl' = sl := by rw [h3] at a1; injection a1 with a1; injection a1 with a1; exact a1.symm
    subst this
    exact ⟨sl', ids, a1, by rw [h4]; exact h, lift h2 g, Nat.le_refl _, fun _ _ h => h, fun k e => absurd e (h1 k)⟩
  cases op with
  | insert k v =>
    obtain ⟨iG, iH, iS, G, H, S, p⟩ := h.pos hl k
    rcases p.cases with ⟨rfl, rfl⟩ | ⟨q, e, rfl, rfl, hkv⟩
    · have hids : ids = iG ++ iS := by simpa using p.ids_eq
      obtain ⟨prevs, hp, hprev, hf⟩ := h.findInsertPoint_miss hl p
      obtain ⟨sl', a1, a2, a3, a4⟩ := h.insert_miss hl p rnd v
      have kp := SL.insert_keep hf a1
      have gs := g.store (iG := iG) (fun x hx => by rw [hids]; simp [hx]) hp (fun x hx => .inr (hprev x hx))
      refine ⟨sl', _, by simp [SL.exec, a1, SMap.step], a2, lift (by simp) ⟨?_, ?_, ?_⟩, kp.count, ?_, by simp⟩
      · intro i x hx
        rw [kp.cache] at hx
        rcases gs.cache i x hx with ⟨h1, h2⟩ | h1
        · refine .inl ⟨by rw [hids] at h1; exact mem_add h1, ?_⟩
          rw [kp.lvl x (SL.lvl_lt (h.lvl_pos x h1))]; exact h2
        · exact .inr h1
      · intro x hx i q hq
        obtain ⟨h1, h2⟩ := g.old x hx
        rw [a4 x h2 (by omega) i] at hq
        exact g.links x hx i q hq
      · intro x hx
        obtain ⟨h1, h2⟩ := g.old x hx
        refine ⟨Nat.lt_of_lt_of_le h1 kp.count, fun hc => h2 ?_⟩
        rw [hids]; exact mem_mid hc (by omega)
      · intro x hx hc
        rw [hids]; exact mem_mid hc (by omega)
    · obtain ⟨prevs, hp, hf, hprev⟩ := h.findInsertPoint_hit hl p
      obtain ⟨sl', a1, a2, a3, a4, a5⟩ := h.insert_hit hl p rnd v
      have kp := SL.insert_keep hf a1
      have gs := g.store (iG := iG) (fun x hx => by rw [p.ids_eq]; simp [hx]) hp hprev
      refine ⟨sl', ids, by simp [SL.exec, a1, SMap.step], a2, lift (by simp) ⟨?_, ?_, ?_⟩, kp.count, fun _ _ h => h, by simp⟩
      · intro i x hx
        rw [kp.cache] at hx
        rcases gs.cache i x hx with ⟨h1, h2⟩ | h1
        · refine .inl ⟨h1, ?_⟩
          rw [kp.lvl x (SL.lvl_lt (h.lvl_pos x h1))]; exact h2
        · exact .inr h1
      · intro x hx i q hq
        rw [a5] at hq
        exact g.links x hx i q hq
      · intro x hx
        obtain ⟨h1, h2⟩ := g.old x hx
        exact ⟨Nat.lt_of_lt_of_le h1 kp.count, h2⟩
  | remove k =>
    obtain ⟨iG, iH, iS, G, H, S, p⟩ := h.pos hl k
    obtain ⟨prevs, hp, hprev, hf⟩ := h.findPrevNodes hl p
    have gs := g.store (iG := iG) (fun x hx => by rw [p.ids_eq]; simp [hx]) hp (fun x hx => .inr (hprev x hx))
    have gone : ∀ {s : SL K V}, (∀ x, s.kv x = sl.kv x) → ∀ x ∈ iG ++ iS, ∀ e, s.kv x = some e → impl.less e.1 k = true ∨ impl.less k e.1 = true := by
      intro s hs x hx e he
      rw [hs] at he
      rcases List.mem_append.1 hx with hx | hx
      · obtain ⟨e', h1, h2⟩ := mem_kv p.kG hx
        rw [h2] at he; injection he with he; subst he
        exact .inl (p.sp.go e' h1)
      · obtain ⟨e', h1, h2⟩ := mem_kv p.kS hx
        rw [h2] at he; injection he with he; subst he
        exact .inr (p.sp.stop e' h1)
    rcases p.cases with ⟨rfl, rfl⟩ | ⟨q, e, rfl, rfl, hkv⟩
    · have hids : ids = iG ++ iS := by simpa using p.ids_eq
      obtain ⟨sl', a1, a2, a3, a4⟩ := h.remove_miss hl p
      have kp := SL.remove_keep hf a1
      refine ⟨sl', ids, by simp [SL.exec, a1, SMap.step, SMap.find_split p.sp], ?_, lift (by simp) ⟨?_, ?_, ?_⟩, kp.count, fun _ _ h => h, ?_⟩
      · simp only [SMap.step, SMap.erase_split p.sp]
        have : m = G ++ S := by simpa using p.sp.eq
        rw [← this]; exact a2
      · intro i x hx
        rw [kp.cache] at hx
        rcases gs.cache i x hx with ⟨h1, h2⟩ | h1
        · refine .inl ⟨h1, ?_⟩
          rw [kp.lvl x (SL.lvl_lt (h.lvl_pos x h1))]; exact h2
        · exact .inr h1
      · intro x hx i q hq
        rw [a4] at hq
        exact g.links x hx i q hq
      · intro x hx
        obtain ⟨h1, h2⟩ := g.old x hx
        exact ⟨Nat.lt_of_lt_of_le h1 kp.count, h2⟩
      · intro k' ek x hx
        injection ek with ek; subst ek
        rw [hids] at hx
        exact gone a3 x hx
    · have hids : ids = iG ++ q :: iS := by simpa using p.ids_eq
      obtain ⟨sl', a1, a2, a3, a4, a5, a6⟩ := h.remove_hit hl p
      have kp := SL.remove_keep hf a1
      refine ⟨sl', iG ++ iS, by simp [SL.exec, a1, SMap.step, SMap.find_split p.sp], a2, lift (by simp) ⟨?_, ?_, ?_⟩, kp.count, ?_, ?_⟩
      · intro i x hx
        rw [kp.cache] at hx
        rcases g.store_full h hp hprev i x hx with ⟨h1, h2⟩ | h1
        · refine .inl ⟨by simp [h1], ?_⟩
          rw [kp.lvl x (SL.lvl_lt (h.lvl_pos x (by rw [hids]; simp [h1])))]; exact h2
        · exact .inr h1
      · intro x hx i y hy
        obtain ⟨h1, h2⟩ := g.old x hx
        rw [a6 x (fun hc => h2 (by rw [hids]; simp [hc])) i] at hy
        exact g.links x hx i y hy
      · intro x hx
        obtain ⟨h1, h2⟩ := g.old x hx
        exact ⟨Nat.lt_of_lt_of_le h1 kp.count, fun hc => h2 (by rw [hids]; exact mem_add hc)⟩
      · intro x _ hc
        rw [hids]; exact mem_add hc
      · intro k' ek x hx
        injection ek with ek; subst ek
        exact gone a3 x hx
  | clear =>
    refine ⟨sl.clear, [], rfl, h.clear, ⟨?_, ?_, ?_⟩, Nat.le_refl _, by simp, by simp⟩
    · intro i x hx
      rcases g.cache i x hx with ⟨h1, _⟩ | h1
      · exact .inr (.inr ⟨rfl, h1⟩)
      · exact .inr (.inl h1)
    · intro x hx i q hq
      have hq : sl.get (.node x) i = some (some q) := hq
      rcases hx with hx | ⟨_, hx⟩
      · exact .inl (g.links x hx i q hq)
      · exact .inr ⟨rfl, h.link_mem hx hq⟩
    · intro x hx
      refine ⟨?_, by simp⟩
      rcases hx with hx | ⟨_, hx⟩
      · exact (g.old x hx).1
      · exact SL.lvl_lt (h.lvl_pos x hx)
  | update k v =>
    obtain ⟨iG, iH, iS, G, H, S, p⟩ := h.pos hl k
    have hf := h.findNode hl p
    rcases p.cases with ⟨rfl, rfl⟩ | ⟨q, e, rfl, rfl, hkv⟩
    · exact ⟨sl, ids, by simp [SL.exec, SL.find, hf, SMap.step, SMap.find_split p.sp],
        by simpa [SMap.step, SMap.find_split p.sp] using h, lift (by simp) g, Nat.le_refl _, fun _ _ h => h, by simp⟩
    · obtain ⟨sl', a1, a2, a3, _, a5, a6⟩ := h.setValue (A := iG) (B := iS) (q := q) (mA := G) (mB := S) (e := e)
        (by rw [p.ids_eq]; rfl) (by rw [p.sp.eq]; rfl) p.kG hkv p.kS v
      have kp := SL.setValue_keep a1
      refine ⟨sl', ids, by simp [SL.exec, SL.find, hf, a1, SMap.step, SMap.find_split p.sp], ?_, lift (by simp) ⟨?_, ?_, ?_⟩,
        kp.count, fun _ _ h => h, by simp⟩
      · simpa [SMap.step, SMap.find_split p.sp, SMap.insert_hit hl.weak p.sp] using a2
      · intro i x hx
        rw [kp.cache] at hx
        rcases g.cache i x hx with ⟨h1, h2⟩ | h1
        · refine .inl ⟨h1, ?_⟩
          rw [kp.lvl x (SL.lvl_lt (h.lvl_pos x h1))]; exact h2
        · exact .inr h1
      · intro x hx i q hq
        rw [a5] at hq
        exact g.links x hx i q hq
      · intro x hx
        obtain ⟨h1, h2⟩ := g.old x hx
        exact ⟨Nat.lt_of_lt_of_le h1 kp.count, h2⟩
  | find k =>
    obtain ⟨sl', ids', a1, _⟩ := h.exec hl rnd (.find k)
    have e : sl' = sl := by
      simp only [SL.exec] at a1
      obtain ⟨o, _, a1⟩ := bind_ret_inv a1
      cases o with
      | none => injection a1 with a1; injection a1 with a1; exact a1.symm
      | some p =>
        obtain ⟨_, _, a1⟩ := bind_ret_inv a1
        injection a1 with a1; injection a1 with a1; exact a1.symm
    subst e
    exact idle (by simp) (by simp) a1 rfl
  | has k =>
    obtain ⟨sl', ids', a1, _⟩ := h.exec hl rnd (.has k)
    have e : sl' = sl := by
      simp only [SL.exec] at a1
      obtain ⟨_, _, a1⟩ := bind_ret_inv a1
      injection a1 with a1; injection a1 with a1; exact a1.symm
    subst e
    exact idle (by simp) (by simp) a1 rfl
  | len => exact idle (by simp) (by simp) rfl rfl
  | isEmpty => exact idle (by simp) (by simp) rfl rfl
  | iterate =>
    obtain ⟨sl', ids', a1, _⟩ := h.exec hl rnd .iterate
    have e : sl' = sl := by
      simp only [SL.exec] at a1
      obtain ⟨_, _, a1⟩ := bind_ret_inv a1
      obtain ⟨_, _, a1⟩ := bind_ret_inv a1
      injection a1 with a1; injection a1 with a1; exact a1.symm
    subst e
    exact idle (by simp) (by simp) a1 rfl
  | lowerBound k =>
    obtain ⟨sl', ids', a1, _⟩ := h.exec hl rnd (.lowerBound k)
    have e : sl' = sl := by
      simp only [SL.exec] at a1
      obtain ⟨_, _, a1⟩ := bind_ret_inv a1
      obtain ⟨_, _, a1⟩ := bind_ret_inv a1
      injection a1 with a1; injection a1 with a1; exact a1.symm
    subst e
    exact idle (by simp) (by simp) a1 rfl
  | upperBound k =>
    obtain ⟨sl', ids', a1, _⟩ := h.exec hl rnd (.upperBound k)
    have e : sl' = sl := by
      simp only [SL.exec] at a1
      obtain ⟨_, _, a1⟩ := bind_ret_inv a1
      obtain ⟨_, _, a1⟩ := bind_ret_inv a1
      injection a1 with a1; injection a1 with a1; exact a1.symm
    subst e
    exact idle (by simp) (by simp) a1 rfl

theorem SLHold.new : SLHold (newSkipList : SL K V) [] (fun _ => False) := by
  refine ⟨fun i p hi => ?_, fun _ h => h.elim, fun _ h => h.elim⟩
  simp only [newSkipList, List.getElem?_replicate] at hi
  split at hi <;> simp at hi

/-- A history, with what it does to the held nodes. -/
theorem SLHold.run (hl : impl.Lawful) (ops : List (Nat × SMOp K V)) : ∀ {sl : SL K V} {ids : List Nat} {m : List (K × V)} {D : Nat → Prop},
    SLHold sl ids D → SLInv impl.less sl ids m →
    ∃ sl' ids' D', SL.run impl sl ops = .ret (sl', (SMap.run impl.less m (opsOf ops)).1) ∧
      SLInv impl.less sl' ids' (SMap.run impl.less m (opsOf ops)).2 ∧ SLHold sl' ids' D' ∧
      (∀ p, D' p → D p ∨ ∃ h1 rnd h2 sl1 obs1, ops = h1 ++ (rnd, .clear) :: h2 ∧ SL.run impl sl h1 = .ret (sl1, obs1) ∧ sl1.Visits p) ∧
      (∀ p, p < sl.nodes.length → p ∉ ids → ¬ D p → p ∉ ids' ∧ ¬ D' p) := by
  induction ops with
  | nil => intro sl ids m D g h; exact ⟨sl, ids, D, rfl, h, g, fun _ h => .inl h, fun _ _ h1 h2 => ⟨h1, h2⟩⟩
  | cons o ops ih =>
    intro sl ids m D g h
    obtain ⟨rnd, op⟩ := o
    obtain ⟨s1, i1, a1, a2, a3, a4, a5, _⟩ := g.exec hl h rnd op
    obtain ⟨s2, i2, D2, b1, b2, b3, b4, b5⟩ := ih a3 a2
    refine ⟨s2, i2, D2, ?_, b2, b3, ?_, ?_⟩
    · simp only [SL.run, a1, Outcome.ret_bind, b1]
      rfl
    · intro p hp
      rcases b4 p hp with (h1 | ⟨rfl, h1⟩) | ⟨h1, r, h2, sl1, obs1, e1, e2, e3⟩
      · exact .inl h1
      · exact .inr ⟨[], rnd, ops, sl, [], rfl, rfl, (h.visits p).2 h1⟩
      · refine .inr ⟨(rnd, op) :: h1, r, h2, sl1, (SMap.step impl.less m op).1 :: obs1, by rw [e1]; rfl, ?_, e3⟩
        simp only [SL.run, a1, Outcome.ret_bind, e2]
        rfl
    · intro p h1 h2 h3
      refine b5 p (Nat.lt_of_lt_of_le h1 a4) (fun hc => h2 (a5 p h1 hc)) ?_
      rintro (hc | ⟨_, hc⟩)
      · exact h3 hc
      · exact h2 hc

theorem SL.Built.hold (hl : impl.Lawful) {h : List (Nat × SMOp K V)} (hb : SL.Built impl h sl) :
    ∃ ids D, SLInv impl.less sl ids (SMap.after impl.less h) ∧ SLHold sl ids D ∧
      ∀ p, D p → ∃ h1 rnd h2 sl1, h = h1 ++ (rnd, .clear) :: h2 ∧ SL.Built impl h1 sl1 ∧ sl1.Visits p := by
  obtain ⟨obs, e⟩ := hb
  obtain ⟨s, ids, D, a1, a2, a3, a4, _⟩ := SLHold.run hl h SLHold.new (SLInv.new (V := V) impl.less)
  rw [e] at a1
  injection a1 with a1
  injection a1 with a1 _
  subst a1
  refine ⟨ids, D, a2, a3, fun p hp => ?_⟩
  rcases a4 p hp with h | ⟨h1, r, h2, sl1, obs1, e1, e2, e3⟩
  · exact h.elim
  · exact ⟨h1, r, h2, sl1, e1, ⟨obs1, e2⟩, e3⟩

end Stl4go
