import Verif.Proofs.SkipListOps
/-! # Skip list: Insert, Remove, Clear preserve the representation -/
namespace Stl4go
variable {K V : Type}

theorem mem_mid {A B : List Nat} {q N : Nat} (h : q ∈ A ++ N :: B) (hn : q ≠ N) : q ∈ A ++ B := by
  simp only [List.mem_append, List.mem_cons] at h ⊢
  rcases h with h | h | h
  · exact .inl h
  · exact absurd h hn
  · exact .inr h

theorem mem_add {A B : List Nat} {q N : Nat} (h : q ∈ A ++ B) : q ∈ A ++ N :: B := by
  simp only [List.mem_append, List.mem_cons] at h ⊢
  rcases h with h | h
  · exact .inl h
  · exact .inr (.inr h)

/-! ## Writing a link -/

/-- Everything but the links (and the cache) is the same. -/
structure SL.Frame (sl sl' : SL K V) : Prop where
  kv : ∀ p, sl'.kv p = sl.kv p
  lvl : ∀ p, sl'.lvl p = sl.lvl p
  level : sl'.level = sl.level
  len : sl'.len = sl.len
  head_len : sl'.headNext.length = sl.headNext.length
  cache : sl'.prevsCache = sl.prevsCache
  count : sl'.nodes.length = sl.nodes.length

theorem SL.Frame.rfl' {sl : SL K V} : SL.Frame sl sl :=
  ⟨fun _ => rfl, fun _ => rfl, rfl, rfl, rfl, rfl, rfl⟩

theorem SL.Frame.trans {a b c : SL K V} (h : SL.Frame a b) (g : SL.Frame b c) : SL.Frame a c :=
  ⟨fun p => (g.kv p).trans (h.kv p), fun p => (g.lvl p).trans (h.lvl p), g.level.trans h.level, g.len.trans h.len,
    g.head_len.trans h.head_len, g.cache.trans h.cache, g.count.trans h.count⟩

theorem SL.setNextAt_spec {sl : SL K V} {r : Ref} {i : Nat} {o : Option Nat} (h : sl.get r i = some o) (v : Option Nat) :
    ∃ sl', sl.setNextAt r i v = .ret sl' ∧ SL.Frame sl sl' ∧ sl'.get r i = some v ∧
      ∀ r' i', ¬ (r' = r ∧ i' = i) → sl'.get r' i' = sl.get r' i' := by
  cases r with
  | head =>
    simp only [SL.get] at h
    obtain ⟨hi, _⟩ := List.getElem?_eq_some_iff.1 h
    refine ⟨{ sl with headNext := sl.headNext.set i v }, ?_, ?_, ?_, ?_⟩
    · simp [SL.setNextAt, setIdx_of_lt hi]
    · exact ⟨fun _ => rfl, fun _ => rfl, rfl, rfl, by simp, rfl, rfl⟩
    · simp [SL.get, hi]
    · intro r' i' hne
      cases r' with
      | head =>
        simp only [SL.get]
        rw [List.getElem?_set_ne]
        rintro rfl; exact hne ⟨rfl, rfl⟩
      | node q => rfl
  | node p =>
    simp only [SL.get, Option.bind_eq_some_iff] at h
    obtain ⟨n, hn, hi⟩ := h
    obtain ⟨hi, _⟩ := List.getElem?_eq_some_iff.1 hi
    obtain ⟨hp, _⟩ := List.getElem?_eq_some_iff.1 hn
    refine ⟨{ sl with nodes := sl.nodes.set p { n with next := n.next.set i v } }, ?_, ?_, ?_, ?_⟩
    · simp [SL.setNextAt, SL.deref, idx_of_get hn, setIdx_of_lt hi]
    · refine ⟨fun q => ?_, fun q => ?_, rfl, rfl, rfl, rfl, by simp⟩
      · by_cases hq : p = q
        · subst hq; simp only [SL.kv, hn]; rw [List.getElem?_set_self hp]; rfl
        · simp only [SL.kv]; rw [List.getElem?_set_ne hq]
      · by_cases hq : p = q
        · subst hq; simp only [SL.lvl, hn]; rw [List.getElem?_set_self hp]; simp
        · simp only [SL.lvl]; rw [List.getElem?_set_ne hq]
    · simp only [SL.get]; rw [List.getElem?_set_self hp]; simp [hi]
    · intro r' i' hne
      cases r' with
      | head => rfl
      | node q =>
        by_cases hq : p = q
        · subst hq
          simp only [SL.get, hn]; rw [List.getElem?_set_self hp]
          simp only [Option.bind_some]
          rw [List.getElem?_set_ne]
          rintro rfl; exact hne ⟨rfl, rfl⟩
        · simp only [SL.get]; rw [List.getElem?_set_ne hq]

theorem prevAt_of_get {prevs : List (Option Ref)} {i : Nat} {r : Ref} (h : prevs[i]? = some (some r)) :
    prevAt prevs i = .ret r := by
  simp [prevAt, idx_of_get h]

/-! ## randomLevel -/

theorem bitsLen64_le {k n : Nat} (h : k < 2 ^ n) : bitsLen64 k ≤ n := by
  unfold bitsLen64
  split
  · omega
  · next hk => have := (Nat.log2_lt hk).2 h; omega

theorem randomLevelLoop_spec (len : Int) (fuel level : Nat) (hf : level < fuel) (h1 : 1 ≤ level) :
    ∃ l, randomLevelLoop len fuel level = .ret l ∧ 1 ≤ l ∧ l ≤ level ∧ (3 < l → (2 ^ (l - 3) : Int) ≤ len) := by
  induction fuel generalizing level with
  | zero => omega
  | succ fuel ih =>
    unfold randomLevelLoop
    split
    · next h =>
      obtain ⟨l, e1, e2, e3, e4⟩ := ih (level - 1) (by omega) (by omega)
      exact ⟨l, e1, e2, by omega, e4⟩
    · next h => exact ⟨level, rfl, h1, Nat.le_refl _, fun h3 => by omega⟩

theorem SL.randomLevel_spec (sl : SL K V) (rnd : Nat) :
    ∃ l, sl.randomLevel rnd = .ret l ∧ 1 ≤ l ∧ l ≤ 40 ∧ (3 < l → (2 ^ (l - 3) : Int) ≤ sl.len) := by
  have hk : rnd &&& (2 ^ 40 - 1) < 2 ^ 40 := by
    rw [Nat.and_two_pow_sub_one_eq_mod]; exact Nat.mod_lt _ (by decide)
  have hb := bitsLen64_le hk
  obtain ⟨l, e1, e2, e3, e4⟩ := randomLevelLoop_spec sl.len
    (40 - bitsLen64 (rnd &&& (2 ^ 40 - 1)) + 1 + 1) (40 - bitsLen64 (rnd &&& (2 ^ 40 - 1)) + 1) (by omega) (by omega)
  refine ⟨if l > 40 then 40 else l, ?_, ?_, ?_, ?_⟩
  · simp only [SL.randomLevel, skipListMaxLevel, e1, Outcome.ret_bind]; rfl
  · split <;> omega
  · split <;> omega
  · split
    · next h =>
      have : l = 41 := by omega
      subst this
      intro _
      have := e4 (by omega)
      simp at this ⊢; omega
    · exact e4

/-! ## Insert: the two linking loops -/

theorem insertLinks_spec {prevs : List (Option Ref)} {p : Nat} {P : Nat → Ref} {N : Nat → Option Nat}
    (hP : ∀ i, P i ≠ .node p) (rem : Nat) : ∀ (j : Nat) (sl : SL K V),
    (∀ i, j ≤ i → i < j + rem → prevs[i]? = some (some (P i)) ∧ sl.get (P i) i = some (N i) ∧
      ∃ o, sl.get (.node p) i = some o) →
    ∃ sl', SL.insertLinks p prevs rem j sl = .ret sl' ∧ SL.Frame sl sl' ∧
      (∀ i, j ≤ i → i < j + rem → sl'.get (P i) i = some (some p) ∧ sl'.get (.node p) i = some (N i)) ∧
      ∀ r i, ¬ (j ≤ i ∧ i < j + rem ∧ (r = P i ∨ r = .node p)) → sl'.get r i = sl.get r i := by
  induction rem with
  | zero => intro j sl _; exact ⟨sl, rfl, SL.Frame.rfl', by intros; omega, by intros; rfl⟩
  | succ rem ih =>
    intro j sl h
    obtain ⟨hp, hg, o, ho⟩ := h j (by omega) (by omega)
    obtain ⟨s1, a1, a2, a3, a4⟩ := SL.setNextAt_spec ho (N j)
    have hg1 : s1.get (P j) j = some (N j) := by rw [a4 _ _ (fun x => hP j x.1), hg]
    obtain ⟨s2, b1, b2, b3, b4⟩ := SL.setNextAt_spec hg1 (some p)
    have keep : ∀ r i, i ≠ j → s2.get r i = sl.get r i := by
      intro r i hi; rw [b4 _ _ (fun x => hi x.2), a4 _ _ (fun x => hi x.2)]
    obtain ⟨s3, c1, c2, c3, c4⟩ := ih (j + 1) s2 (fun i h1 h2 => by
      obtain ⟨x, y, z⟩ := h i (by omega) (by omega)
      rw [keep _ _ (by omega), keep _ _ (by omega)]
      exact ⟨x, y, z⟩)
    refine ⟨s3, ?_, a2.trans (b2.trans c2), ?_, ?_⟩
    · simp only [SL.insertLinks, prevAt_of_get hp, Outcome.ret_bind, SL.nextAt_of_get hg, a1, b1, c1]
    · intro i h1 h2
      by_cases hi : i = j
      · subst hi
        rw [c4 _ _ (by omega), c4 _ _ (by omega), b3, b4 _ _ (fun x => hP i x.1.symm), a3]
        exact ⟨rfl, rfl⟩
      · exact c3 i (by omega) (by omega)
    · intro r i hn
      rw [c4 r i (fun x => hn ⟨by omega, by omega, x.2.2⟩)]
      by_cases hi : i = j
      · subst hi
        have h1 : r ≠ P i := fun e => hn ⟨by omega, by omega, .inl e⟩
        have h2 : r ≠ .node p := fun e => hn ⟨by omega, by omega, .inr e⟩
        rw [b4 _ _ (fun x => h1 x.1), a4 _ _ (fun x => h2 x.1)]
      · exact keep r i hi

theorem raiseHead_spec {p : Nat} (rem : Nat) : ∀ (j : Nat) (sl : SL K V), j + rem ≤ sl.headNext.length →
    ∃ sl', SL.raiseHead p rem j sl = .ret sl' ∧ SL.Frame sl sl' ∧
      (∀ i, j ≤ i → i < j + rem → sl'.get .head i = some (some p)) ∧
      ∀ r i, ¬ (j ≤ i ∧ i < j + rem ∧ r = .head) → sl'.get r i = sl.get r i := by
  induction rem with
  | zero => intro j sl _; exact ⟨sl, rfl, SL.Frame.rfl', by intros; omega, by intros; rfl⟩
  | succ rem ih =>
    intro j sl h
    have hg : sl.get .head j = some sl.headNext[j] := by simp [SL.get]
    obtain ⟨s1, a1, a2, a3, a4⟩ := SL.setNextAt_spec hg (some p)
    obtain ⟨s2, c1, c2, c3, c4⟩ := ih (j + 1) s1 (by rw [a2.head_len]; omega)
    refine ⟨s2, ?_, a2.trans c2, ?_, ?_⟩
    · simp only [SL.raiseHead, a1, Outcome.ret_bind, c1]
    · intro i h1 h2
      by_cases hi : i = j
      · subst hi; rw [c4 _ _ (by omega), a3]
      · exact c3 i (by omega) (by omega)
    · intro r i hn
      rw [c4 r i (fun x => hn ⟨by omega, by omega, x.2.2⟩), a4]
      rintro ⟨rfl, rfl⟩; exact hn ⟨by omega, by omega, rfl⟩

/-! ## Finding the insert and remove points -/

variable {impl : SLImpl K} {sl : SL K V} {ids : List Nat} {m : List (K × V)} {d : Int}
variable {key : K} {iG iH iS : List Nat} {G H S : List (K × V)}

theorem SLInvD.head_lastAt {less : K → K → Bool} (h : SLInvD d less sl ids m) (hG : ∀ q ∈ iG, q ∈ ids) {i : Nat} (hi : sl.level ≤ i) :
    lastAt sl.lvl i iG = .head :=
  lastAt_head (fun x hx => by have := h.lvl_le x (hG x hx); omega)

theorem SLInvD.prevsSlice {less : K → K → Bool} (h : SLInvD d less sl ids m) : sl.prevsSlice = .ret (sl.prevsCache.take sl.level) := by
  have := h.level_le; have := h.cache_len
  unfold SL.prevsSlice; rw [if_pos (by omega)]

theorem SLInvD.take_len {less : K → K → Bool} (h : SLInvD d less sl ids m) : (sl.prevsCache.take sl.level).length = sl.level := by
  have := h.level_le; have := h.cache_len
  rw [List.length_take]; omega

theorem SLInvD.store {less : K → K → Bool} (h : SLInvD d less sl ids m) {prevs : List (Option Ref)} (hp : prevs.length = sl.level) :
    SLInvD d less (sl.storePrevs prevs) ids m := by
  have := h.level_le; have := h.cache_len
  exact { h with cache_len := by simp [SL.storePrevs]; omega }

theorem SLInvD.findInsertPoint_hit (hl : impl.Lawful) (h : SLInvD d impl.less sl ids m) {q : Nat}
    (p : Pos impl.less sl ids m key iG [q] iS G H S) :
    ∃ prevs, prevs.length = sl.level ∧ sl.findInsertPoint impl key = .ret (sl.storePrevs prevs, some q, []) ∧
      ∀ x, x < sl.level → prevs[x]? = sl.prevsCache[x]? ∨ prevs[x]? = some (some (lastAt sl.lvl x iG)) := by
  have e : Ref.head = lastAt sl.lvl 40 iG :=
    (h.head_lastAt (fun x hx => by rw [p.ids_eq]; simp [hx]) h.level_le).symm
  obtain ⟨prevs, h1, h2, h3⟩ := prevOuter_hit h.linked (p.split hl) h.count (h.lvl_pos q (by rw [p.ids_eq]; simp)) sl.level 40
    (by have := h.level_le; omega) h.level_le h.level_pos (sl.prevsCache.take sl.level) (by rw [h.take_len]; omega)
  rw [← e] at h1
  refine ⟨prevs, by rw [h2, h.take_len], ?_, fun x hx => ?_⟩
  rotate_left
  · have := h3 x
    rwa [List.getElem?_take_of_lt hx] at this
  cases impl with
  | ordered o =>
    have h1 : prevOuter (decO key) sl sl.level .head (sl.prevsCache.take sl.level) = _ := h1
    simp only [SL.findInsertPoint, h.prevsSlice, Outcome.ret_bind, findInsertOuterO_eq, h1]; rfl
  | func c =>
    have h1 : prevOuter (decF c key) sl sl.level .head (sl.prevsCache.take sl.level) = _ := h1
    simp only [SL.findInsertPoint, h.prevsSlice, Outcome.ret_bind, findInsertOuterF_eq, h1]; rfl

theorem SLInvD.findInsertPoint_miss (hl : impl.Lawful) (h : SLInvD d impl.less sl ids m)
    (p : Pos impl.less sl ids m key iG [] iS G H S) :
    ∃ prevs, prevs.length = sl.level ∧ (∀ x, x < sl.level → prevs[x]? = some (some (lastAt sl.lvl x iG))) ∧
      sl.findInsertPoint impl key = .ret (sl.storePrevs prevs, none, prevs) := by
  have e : Ref.head = lastAt sl.lvl 40 iG :=
    (h.head_lastAt (fun x hx => by rw [p.ids_eq]; simp [hx]) h.level_le).symm
  obtain ⟨prevs, h1, h2, h3, _⟩ := prevOuter_miss h.linked (p.split hl) h.count sl.level 40
    (by have := h.level_le; omega) h.level_le (sl.prevsCache.take sl.level) (by rw [h.take_len]; omega)
  rw [← e] at h1
  refine ⟨prevs, by rw [h2, h.take_len], h3, ?_⟩
  cases impl with
  | ordered o =>
    have h1 : prevOuter (decO key) sl sl.level .head (sl.prevsCache.take sl.level) = _ := h1
    simp only [SL.findInsertPoint, h.prevsSlice, Outcome.ret_bind, findInsertOuterO_eq, h1]; rfl
  | func c =>
    have h1 : prevOuter (decF c key) sl sl.level .head (sl.prevsCache.take sl.level) = _ := h1
    simp only [SL.findInsertPoint, h.prevsSlice, Outcome.ret_bind, findInsertOuterF_eq, h1]; rfl

theorem of_none_pair {x : Outcome (List (Option Ref))} {r : List (Option Ref)}
    (h : (do let r ← x; return ((none : Option Nat), r)) = .ret (none, r)) : x = .ret r := by
  cases x with
  | ret a => simp at h; rw [h]
  | panic => simp at h
  | diverge => simp at h

theorem SLInvD.findPrevNodes (hl : impl.Lawful) (h : SLInvD d impl.less sl ids m)
    (p : Pos impl.less sl ids m key iG iH iS G H S) :
    ∃ prevs, prevs.length = sl.level ∧ (∀ x, x < sl.level → prevs[x]? = some (some (lastAt sl.lvl x iG))) ∧
      sl.findPrevNodes impl key = .ret (sl.storePrevs prevs, prevs) := by
  have e : Ref.head = lastAt sl.lvl 40 iG :=
    (h.head_lastAt (fun x hx => by rw [p.ids_eq]; simp [hx]) h.level_le).symm
  obtain ⟨prevs, h1, h2, h3, _⟩ := prevOuter_miss h.linked (p.splitP hl) h.count sl.level 40
    (by have := h.level_le; omega) h.level_le (sl.prevsCache.take sl.level) (by rw [h.take_len]; omega)
  rw [← e] at h1
  refine ⟨prevs, by rw [h2, h.take_len], h3, ?_⟩
  cases impl with
  | ordered o =>
    have h1 : prevOuter (decPO key) sl sl.level .head (sl.prevsCache.take sl.level) = _ := h1
    rw [← findPrevOuterO_eq] at h1
    simp only [SL.findPrevNodes, h.prevsSlice, Outcome.ret_bind, of_none_pair h1]; rfl
  | func c =>
    have h1 : prevOuter (decPF c key) sl sl.level .head (sl.prevsCache.take sl.level) = _ := h1
    rw [← findPrevOuterF_eq] at h1
    simp only [SL.findPrevNodes, h.prevsSlice, Outcome.ret_bind, of_none_pair h1]; rfl

/-! ## Writing a value -/

theorem SL.setValue_spec {sl : SL K V} {q : Nat} {e : K × V} (hq : sl.kv q = some e) (v : V) :
    ∃ sl', sl.setValue q v = .ret sl' ∧ (∀ r i, sl'.get r i = sl.get r i) ∧ (∀ p, sl'.lvl p = sl.lvl p) ∧
      sl'.kv q = some (e.1, v) ∧ (∀ p, p ≠ q → sl'.kv p = sl.kv p) ∧ sl'.level = sl.level ∧ sl'.len = sl.len ∧
      sl'.headNext = sl.headNext ∧ sl'.prevsCache = sl.prevsCache ∧ sl'.nodes.length = sl.nodes.length := by
  obtain ⟨n, hn, hk, _⟩ := SL.kv_some hq
  obtain ⟨hp, _⟩ := List.getElem?_eq_some_iff.1 hn
  refine ⟨{ sl with nodes := sl.nodes.set q { n with value := v } }, ?_, ?_, ?_, ?_, ?_, rfl, rfl, rfl, rfl, by simp⟩
  · simp [SL.setValue, SL.deref, idx_of_get hn]
  · intro r i
    cases r with
    | head => rfl
    | node p =>
      by_cases hpq : q = p
      · subst hpq; simp only [SL.get, hn]; rw [List.getElem?_set_self hp]; rfl
      · simp only [SL.get]; rw [List.getElem?_set_ne hpq]
  · intro p
    by_cases hpq : q = p
    · subst hpq; simp only [SL.lvl, hn]; rw [List.getElem?_set_self hp]
    · simp only [SL.lvl]; rw [List.getElem?_set_ne hpq]
  · simp only [SL.kv]; rw [List.getElem?_set_self hp]; simp [hk]
  · intro p hpq
    simp only [SL.kv]; rw [List.getElem?_set_ne (fun e => hpq e.symm)]

theorem Linked.congr {get get' : Ref → Nat → Option (Option Nat)} {lvl lvl' : Nat → Nat} {ids : List Nat}
    (h : Linked get lvl ids) (hg : ∀ r i, get' r i = get r i) (hl : ∀ p ∈ ids, lvl' p = lvl p) : Linked get' lvl' ids := by
  refine ⟨h.nodup, ?_, ?_⟩
  · intro i hi; rw [hg, h.head_get i hi, firstAt_congr hl]
  · intro A p B e i hi
    rw [hl p (by rw [e]; simp)] at hi
    rw [hg, h.node_get A p B e i hi]
    refine congrArg some (firstAt_congr ?_).symm
    intro q hq; exact (hl q (by rw [e]; simp [hq]))

/-- Overwriting the value of one stored node. -/
theorem SLInvD.setValue {less : K → K → Bool} (h : SLInvD d less sl ids m) {A B : List Nat} {q : Nat} {mA mB : List (K × V)} {e : K × V}
    (hids : ids = A ++ q :: B) (hm : m = mA ++ e :: mB) (hA : A.map sl.kv = mA.map some) (hq : sl.kv q = some e)
    (hB : B.map sl.kv = mB.map some) (v : V) :
    ∃ sl', sl.setValue q v = .ret sl' ∧ SLInvD d less sl' ids (mA ++ (e.1, v) :: mB) ∧
      (∀ p, p ≠ q → sl'.kv p = sl.kv p) ∧ sl'.kv q = some (e.1, v) ∧ (∀ r i, sl'.get r i = sl.get r i) ∧
      sl'.nodes.length = sl.nodes.length := by
  obtain ⟨sl', a1, a2, a3, a4, a5, a6, a7, a8, a9, a10⟩ := SL.setValue_spec hq v
  refine ⟨sl', a1, ?_, a5, a4, a2, a10⟩
  have hn := h.linked.nodup
  rw [hids] at hn
  have hqA : ∀ x ∈ A, x ≠ q := by
    intro x hx hxq; subst hxq
    exact (List.nodup_append.1 hn).2.2 x hx x (by simp) rfl
  have hqB : ∀ x ∈ B, x ≠ q := by
    intro x hx hxq; subst hxq
    exact (List.nodup_cons.1 (List.nodup_append.1 hn).2.1).1 hx
  refine ⟨h.linked.congr a2 (fun p _ => a3 p), ?_, ?_, by rw [a6]; exact h.level_pos, by rw [a6]; exact h.level_le,
    by rw [a8]; exact h.head_len, by rw [a9]; exact h.cache_len, by rw [a10]; exact h.count, by rw [a7]; exact h.len_d, ?_, ?_⟩
  · intro p hp; rw [a3]; exact h.lvl_pos p hp
  · intro p hp; rw [a3, a6]; exact h.lvl_le p hp
  · rw [hids, List.map_append, List.map_cons, List.map_append, List.map_cons, a4]
    rw [List.map_congr_left (fun x hx => a5 x (hqA x hx)), hA, List.map_congr_left (fun x hx => a5 x (hqB x hx)), hB]
  · have hs := h.sorted
    rw [hm] at hs
    unfold SMap.Sorted at hs ⊢
    rw [List.pairwise_append, List.pairwise_cons] at hs ⊢
    refine ⟨hs.1, ⟨hs.2.1.1, hs.2.1.2⟩, ?_⟩
    intro a ha b hb
    rcases List.mem_cons.1 hb with rfl | hb
    · exact hs.2.2 a ha e (by simp)
    · exact hs.2.2 a ha b (by simp [hb])

/-! ## Insert -/

/-- Insert of a key that is present: only the value of its node changes. -/
theorem SLInvD.insert_hit (hl : impl.Lawful) (h : SLInvD d impl.less sl ids m) {q : Nat} {e : K × V}
    (p : Pos impl.less sl ids m key iG [q] iS G [e] S) (rnd : Nat) (v : V) :
    ∃ sl', sl.insert impl rnd key v = .ret sl' ∧ SLInvD d impl.less sl' ids (SMap.insert impl.less key v m) ∧
      (∀ x, x ≠ q → sl'.kv x = sl.kv x) ∧ sl'.kv q = some (e.1, v) ∧ (∀ r i, sl'.get r i = sl.get r i) := by
  obtain ⟨prevs, hp, hf, _⟩ := h.findInsertPoint_hit hl p
  have h' := h.store hp
  have hkq : sl.kv q = some e := by have := p.kH; simpa using this
  obtain ⟨sl', a1, a2, a3, a4, a5, _⟩ := h'.setValue (A := iG) (B := iS) (q := q) (mA := G) (mB := S) (e := e)
    (by rw [p.ids_eq]; rfl) (by rw [p.sp.eq]; rfl) p.kG hkq p.kS v
  refine ⟨sl', ?_, ?_, a3, a4, fun r i => (a5 r i).trans (by cases r <;> rfl)⟩
  · simp only [SL.insert, hf, Outcome.ret_bind, a1]
  · rw [SMap.insert_hit hl.weak p.sp]; exact a2

theorem SL.newNode_spec (sl : SL K V) {l : Nat} (h1 : 1 ≤ l) (h2 : l ≤ 40) (key : K) (v : V) :
    ∃ sl', sl.newNode l key v = .ret (sl', sl.nodes.length) ∧
      (∀ i, i < l → sl'.get (.node sl.nodes.length) i = some none) ∧
      (∀ r i, r ≠ .node sl.nodes.length → sl'.get r i = sl.get r i) ∧
      (∀ p, p ≠ sl.nodes.length → sl'.lvl p = sl.lvl p) ∧ sl'.lvl sl.nodes.length = l ∧
      (∀ p, p ≠ sl.nodes.length → sl'.kv p = sl.kv p) ∧ sl'.kv sl.nodes.length = some (key, v) ∧
      sl'.level = sl.level ∧ sl'.len = sl.len ∧ sl'.headNext = sl.headNext ∧ sl'.prevsCache = sl.prevsCache ∧
      sl'.nodes.length = sl.nodes.length + 1 := by
  have key_ne : ∀ p, p ≠ sl.nodes.length → ∀ n : SLNode K V, (sl.nodes ++ [n])[p]? = sl.nodes[p]? := by
    intro p hp n
    rcases Nat.lt_or_gt_of_ne hp with h | h
    · exact List.getElem?_append_left h
    · rw [List.getElem?_eq_none (by simp; omega), List.getElem?_eq_none (by omega)]
  refine ⟨{ sl with nodes := sl.nodes ++ [{ key, value := v, next := List.replicate l none }] },
    by rw [SL.newNode, if_pos ⟨h1, h2⟩], ?_, ?_, ?_, ?_, ?_, ?_, rfl, rfl, rfl, rfl, by simp⟩
  · intro i hi; simp [SL.get, hi]
  · intro r i hr
    cases r with
    | head => rfl
    | node p =>
      simp only [SL.get]
      rw [key_ne p (fun e => hr (by rw [e]))]
  · intro p hp; simp only [SL.lvl]; rw [key_ne p hp]
  · simp [SL.lvl]
  · intro p hp; simp only [SL.kv]; rw [key_ne p hp]
  · simp [SL.kv]

theorem min2_nat (a b : Nat) : min2 a b = min a b := by
  simp only [min2, GoOrd.lt, decide_eq_true_eq]
  split <;> omega

/-- Linking a new node of level `l` in after `iG`, whatever made the search end there. -/
theorem SLInvD.link_at {less : K → K → Bool} (h : SLInvD d less sl ids m) (hids : ids = iG ++ iS) (kG : iG.map sl.kv = G.map some)
    (kS : iS.map sl.kv = S.map some) {prevs : List (Option Ref)} (hp : prevs.length = sl.level)
    (hprev : ∀ x, x < sl.level → prevs[x]? = some (some (lastAt sl.lvl x iG))) (v : V)
    (hsort : SMap.Sorted less (G ++ (key, v) :: S)) {l : Nat} (r2 : 1 ≤ l) (r3 : l ≤ 40) :
    ∃ s1 s2 sl', (sl.storePrevs prevs).newNode l key v = .ret (s1, sl.nodes.length) ∧ s1.level = sl.level ∧
      SL.insertLinks sl.nodes.length prevs (min2 l s1.level) 0 s1 = .ret s2 ∧ s2.level = sl.level ∧ s2.len = sl.len ∧
      (if l > s2.level then (do
          let s ← SL.raiseHead sl.nodes.length (l - s2.level) s2.level s2
          pure { s with level := l }) else pure s2) = Outcome.ret { sl' with len := s2.len } ∧ sl'.len = s2.len + 1 ∧
      SLInvD d less sl' (iG ++ sl.nodes.length :: iS) (G ++ (key, v) :: S) ∧ sl'.lvl sl.nodes.length = l ∧
      (∀ x, x ≠ sl.nodes.length → sl'.kv x = sl.kv x) ∧ sl'.kv sl.nodes.length = some (key, v) ∧
      (∀ x ∈ ids, sl'.lvl x = sl.lvl x) ∧
      (∀ x, x ∉ ids → x ≠ sl.nodes.length → ∀ i, sl'.get (.node x) i = sl.get (.node x) i) := by
  have h0 := h.store hp
  generalize hs0 : sl.storePrevs prevs = s0 at h0
  have e_get : ∀ r i, s0.get r i = sl.get r i := by subst hs0; intros; cases ‹Ref› <;> rfl
  have e_lvl : s0.lvl = sl.lvl := by subst hs0; rfl
  have e_kv : s0.kv = sl.kv := by subst hs0; rfl
  have e_n : s0.nodes.length = sl.nodes.length := by subst hs0; rfl
  have e_level : s0.level = sl.level := by subst hs0; rfl
  have e_len : s0.len = sl.len := by subst hs0; rfl
  rw [← e_n]
  rw [← e_lvl, ← e_level] at hprev
  rw [← e_level] at hp
  obtain ⟨s1, n1, n2, n3, n4, n5, n6, n7, n8, n9, n10, n11, n12⟩ := s0.newNode_spec r2 r3 key v
  generalize hN : s0.nodes.length = N at *
  have hlt : ∀ q ∈ ids, q < N := fun q hq => by rw [← hN]; exact SL.lvl_lt (h0.lvl_pos q hq)
  have hfresh : N ∉ iG ++ iS := by
    rw [← hids]; intro hc; have := hlt N hc; omega
  have hP : ∀ i, lastAt s0.lvl i iG ≠ .node N := by
    intro i hc
    have := (lastAt_node_mem hc).1
    exact hfresh (by simp [this])
  have L : Linked s0.get s0.lvl (iG ++ iS) := by rw [← hids]; exact h0.linked
  obtain ⟨s2, l1, l2, l3, l4⟩ := insertLinks_spec (prevs := prevs) (p := N) (P := fun i => lastAt s0.lvl i iG)
    (N := fun i => firstAt s0.lvl i iS) hP (min2 l s1.level) 0 s1 (by
      intro i _ hi
      rw [min2_nat, n8] at hi
      refine ⟨hprev i (by omega), ?_, none, n2 i (by omega)⟩
      rw [n3 _ _ (hP i)]
      exact L.get_lastAt (by omega))
  rw [min2_nat, n8] at l3 l4
  -- the head links above the old level
  have hraise : ∃ s3, (if l > s2.level then (do
          let s ← SL.raiseHead N (l - s2.level) s2.level s2
          pure { s with level := l }) else pure s2) = Outcome.ret s3 ∧
      (∀ p, s3.kv p = s2.kv p) ∧ (∀ p, s3.lvl p = s2.lvl p) ∧ s3.level = max l s2.level ∧ s3.len = s2.len ∧
      s3.headNext.length = s2.headNext.length ∧ s3.prevsCache = s2.prevsCache ∧ s3.nodes.length = s2.nodes.length ∧
      (∀ i, s2.level ≤ i → i < l → s3.get .head i = some (some N)) ∧
      ∀ r i, ¬ (s2.level ≤ i ∧ i < l ∧ r = .head) → s3.get r i = s2.get r i := by
    by_cases hgt : l > s2.level
    · obtain ⟨s, b1, b2, b3, b4⟩ := raiseHead_spec (p := N) (l - s2.level) s2.level s2 (by
        rw [l2.head_len, n10, h0.head_len]; omega)
      have g : ∀ r i, SL.get { s with level := l } r i = s.get r i := by intro r i; cases r <;> rfl
      refine ⟨{ s with level := l }, by rw [if_pos hgt, b1]; rfl, b2.kv, b2.lvl, by simp; omega, b2.len, b2.head_len, b2.cache,
        b2.count, ?_, ?_⟩
      · intro i h1 h2; rw [g]; exact b3 i h1 (by omega)
      · intro r i hn; rw [g]; apply b4; rintro ⟨x, y, z⟩; exact hn ⟨x, by omega, z⟩
    · refine ⟨s2, by rw [if_neg hgt]; rfl, fun _ => rfl, fun _ => rfl, by omega, rfl, rfl, rfl, rfl, ?_, fun _ _ _ => rfl⟩
      intro i _ _; omega
  obtain ⟨s3, c1, c2, c3, c4, c5, c6, c7, c8, c9, c10⟩ := hraise
  have hs2l : s2.level = s0.level := l2.level.trans n8
  have hs2len : s2.len = s0.len := l2.len.trans n9
  have kv_N : s3.kv N = some (key, v) := by rw [c2, l2.kv, n7]
  have kv_ne : ∀ x, x ≠ N → s3.kv x = s0.kv x := fun x hx => by rw [c2, l2.kv, n6 x hx]
  have lvl_N : s3.lvl N = l := by rw [c3, l2.lvl, n5]
  have lvl_ne : ∀ x, x ≠ N → s3.lvl x = s0.lvl x := fun x hx => by rw [c3, l2.lvl, n4 x hx]
  have hne : ∀ q ∈ iG ++ iS, q ≠ N := fun q hq e => hfresh (e ▸ hq)
  have hhead : ∀ i, s0.level ≤ i → lastAt s0.lvl i iG = .head := fun i hi =>
    h0.head_lastAt (fun q hq => by rw [hids]; simp [hq]) hi
  have hnone : ∀ i, s0.level ≤ i → firstAt s0.lvl i iS = none := fun i hi => firstAt_none.2 (fun q hq => by
    have := h0.lvl_le q (by rw [hids]; simp [hq]); omega)
  have L' : Linked s3.get s3.lvl (iG ++ N :: iS) := by
    refine L.insert hfresh (fun q hq => lvl_ne q (hne q hq)) lvl_N ?_ ?_ ?_
    · intro i hi
      by_cases hi2 : i < s0.level
      · rw [c10 _ _ (by omega)]; exact (l3 i (by omega) (by omega)).1
      · rw [hhead i (by omega)]; exact c9 i (by omega) hi
    · intro i hi
      rw [c10 _ _ (by simp)]
      by_cases hi2 : i < s0.level
      · exact (l3 i (by omega) (by omega)).2
      · rw [l4 _ _ (by omega), n2 i hi, hnone i (by omega)]
    · intro r i hr hn
      have e1 : s3.get r i = s2.get r i := by
        apply c10; rintro ⟨x, y, rfl⟩
        exact hn ⟨y, (hhead i (by omega)).symm⟩
      have e2 : s2.get r i = s1.get r i := by
        apply l4; rintro ⟨_, y, z⟩
        rcases z with z | z
        · exact hn ⟨by omega, z⟩
        · exact hr z
      rw [e1, e2, n3 r i hr]
  have g4 : ∀ r i, SL.get { s3 with len := s3.len + 1 } r i = s3.get r i := by intro r i; cases r <;> rfl
  have c1' : ({ s3 with len := s2.len } : SL K V) = s3 := by rw [← c5]
  refine ⟨s1, s2, { s3 with len := s3.len + 1 }, n1, n8.trans e_level, l1, hs2l.trans e_level, hs2len.trans e_len, by simp only; rw [c1']; exact c1, by simp only [c5], ?_, lvl_N, ?_, ?_, ?_, ?_⟩
  · refine ⟨L'.congr g4 (fun _ _ => rfl), ?_, ?_, ?_, ?_, ?_, ?_, ?_, ?_, ?_, ?_⟩
    · intro q hq
      show 0 < s3.lvl q
      by_cases hqN : q = N
      · rw [hqN, lvl_N]; omega
      · rw [lvl_ne q hqN]
        refine h0.lvl_pos q ?_
        rw [hids]; exact mem_mid hq hqN
    · intro q hq
      show s3.lvl q ≤ s3.level
      by_cases hqN : q = N
      · rw [hqN, lvl_N]; omega
      · rw [lvl_ne q hqN]
        have := h0.lvl_le q (by rw [hids]; exact mem_mid hq hqN)
        omega
    · show 1 ≤ s3.level
      omega
    · show s3.level ≤ 40
      have := h0.level_le; omega
    · show s3.headNext.length = 40
      rw [c6, l2.head_len, n10, h0.head_len]
    · show s3.prevsCache.length = 40
      rw [c7, l2.cache, n11, h0.cache_len]
    · show _ ≤ s3.nodes.length
      rw [c8, l2.count, n12]
      have := h0.count; rw [hids, List.length_append] at this
      simp; omega
    · show s3.len + 1 = _
      rw [c5, hs2len, h0.len_d, hids]; simp; omega
    · show (iG ++ N :: iS).map s3.kv = _
      rw [List.map_append, List.map_cons, List.map_append, List.map_cons, kv_N]
      rw [List.map_congr_left (fun x hx => kv_ne x (hne x (by simp [hx]))), e_kv, kG,
        List.map_congr_left (fun x hx => kv_ne x (hne x (by simp [hx]))), e_kv, kS]
    · exact hsort
  · intro x hx
    show s3.kv x = _
    rw [kv_ne x hx, e_kv]
  · exact kv_N
  · intro x hx
    show s3.lvl x = _
    rw [lvl_ne x (by have := hlt x hx; omega), e_lvl]
  · intro x hx hxN i
    rw [g4, c10 _ _ (by simp), l4, n3 _ _ (by simpa using hxN), e_get]
    rintro ⟨_, _, z⟩
    rcases z with z | z
    · exact hx (by rw [hids]; simp [(lastAt_node_mem z.symm).1])
    · exact hxN (by injection z)

/-- Inserting after `iG`, whatever made the search end there. -/
theorem SLInvD.insert_at {less : K → K → Bool} (h : SLInvD d less sl ids m) (hids : ids = iG ++ iS) (kG : iG.map sl.kv = G.map some)
    (kS : iS.map sl.kv = S.map some) {prevs : List (Option Ref)} (hp : prevs.length = sl.level)
    (hprev : ∀ x, x < sl.level → prevs[x]? = some (some (lastAt sl.lvl x iG)))
    (hf : sl.findInsertPoint impl key = .ret (sl.storePrevs prevs, none, prevs)) (rnd : Nat) (v : V)
    (hsort : SMap.Sorted less (G ++ (key, v) :: S)) :
    ∃ sl', sl.insert impl rnd key v = .ret sl' ∧
      SLInvD d less sl' (iG ++ sl.nodes.length :: iS) (G ++ (key, v) :: S) ∧
      (∀ x, x ≠ sl.nodes.length → sl'.kv x = sl.kv x) ∧ sl'.kv sl.nodes.length = some (key, v) ∧
      (∀ x ∈ ids, sl'.lvl x = sl.lvl x) ∧
      (∀ x, x ∉ ids → x ≠ sl.nodes.length → ∀ i, sl'.get (.node x) i = sl.get (.node x) i) := by
  obtain ⟨l, r1, r2, r3, _⟩ := (sl.storePrevs prevs).randomLevel_spec rnd
  obtain ⟨s1, s2, sl', n1, _, l1, _, _, c1, c2, c3, _, rest⟩ := h.link_at hids kG kS hp hprev v hsort r2 r3
  refine ⟨sl', ?_, c3, rest⟩
  have e : sl' = { ({ sl' with len := s2.len } : SL K V) with len := ({ sl' with len := s2.len } : SL K V).len + 1 } := by
    simp only; rw [← c2]
  simp only [SL.insert, hf, Outcome.ret_bind, r1, n1, l1]
  rw [e]
  generalize ({ sl' with len := s2.len } : SL K V) = s3 at c1 ⊢
  by_cases hgt : l > s2.level
  · rw [if_pos hgt] at c1 ⊢
    simp only [pure_bind] at c1 ⊢
    cases hx : SL.raiseHead sl.nodes.length (l - s2.level) s2.level s2 with
    | ret s => rw [hx] at c1; simp at c1; simp [← c1]
    | panic => rw [hx] at c1; simp at c1
    | diverge => rw [hx] at c1; simp at c1
  · rw [if_neg hgt] at c1 ⊢
    simp at c1; simp [← c1]

/-- Insert of a new key: one new node, at the position of its key. -/
theorem SLInvD.insert_miss (hl : impl.Lawful) (h : SLInvD d impl.less sl ids m)
    (p : Pos impl.less sl ids m key iG [] iS G [] S) (rnd : Nat) (v : V) :
    ∃ sl', sl.insert impl rnd key v = .ret sl' ∧
      SLInvD d impl.less sl' (iG ++ sl.nodes.length :: iS) (SMap.insert impl.less key v m) ∧
      (∀ x, x ≠ sl.nodes.length → sl'.kv x = sl.kv x) ∧
      (∀ x, x ∉ ids → x ≠ sl.nodes.length → ∀ i, sl'.get (.node x) i = sl.get (.node x) i) := by
  obtain ⟨prevs, hp, hprev, hf⟩ := h.findInsertPoint_miss hl p
  have hids : ids = iG ++ iS := by simpa using p.ids_eq
  obtain ⟨sl', a1, a2, a3, _, _, a6⟩ := h.insert_at hids p.kG p.kS hp hprev hf rnd v
    (SMap.sorted_put hl.weak h.sorted p.sp ⟨hl.weak.irrefl key, hl.weak.irrefl key⟩)
  rw [SMap.insert_miss hl.weak p.sp]
  exact ⟨sl', a1, a2, a3, a6⟩

/-! ## Remove -/

theorem unlink_spec {prevs : List (Option Ref)} {p : Nat} {P : Nat → Ref} {N : Nat → Option Nat}
    (rem : Nat) : ∀ (j : Nat) (sl : SL K V),
    (∀ i, j ≤ i → i < j + rem → prevs[i]? = some (some (P i)) ∧ sl.get (.node p) i = some (N i) ∧
      ∃ o, sl.get (P i) i = some o) →
    ∃ sl', SL.unlink p prevs rem j sl = .ret sl' ∧ SL.Frame sl sl' ∧
      (∀ i, j ≤ i → i < j + rem → sl'.get (P i) i = some (N i)) ∧
      ∀ r i, ¬ (j ≤ i ∧ i < j + rem ∧ r = P i) → sl'.get r i = sl.get r i := by
  induction rem with
  | zero => intro j sl _; exact ⟨sl, rfl, SL.Frame.rfl', by intros; omega, by intros; rfl⟩
  | succ rem ih =>
    intro j sl h
    obtain ⟨hp, hg, o, ho⟩ := h j (by omega) (by omega)
    obtain ⟨s1, a1, a2, a3, a4⟩ := SL.setNextAt_spec ho (N j)
    have keep : ∀ r i, i ≠ j → s1.get r i = sl.get r i := fun r i hi => a4 _ _ (fun x => hi x.2)
    obtain ⟨s2, c1, c2, c3, c4⟩ := ih (j + 1) s1 (fun i h1 h2 => by
      obtain ⟨x, y, z⟩ := h i (by omega) (by omega)
      rw [keep _ _ (by omega), keep _ _ (by omega)]
      exact ⟨x, y, z⟩)
    refine ⟨s2, ?_, a2.trans c2, ?_, ?_⟩
    · simp only [SL.unlink, SL.nextAt_of_get hg, prevAt_of_get hp, Outcome.ret_bind, a1, c1]
    · intro i h1 h2
      by_cases hi : i = j
      · subst hi; rw [c4 _ _ (by omega), a3]
      · exact c3 i (by omega) (by omega)
    · intro r i hn
      rw [c4 r i (fun x => hn ⟨by omega, by omega, x.2.2⟩)]
      apply a4
      rintro ⟨rfl, rfl⟩; exact hn ⟨by omega, by omega, rfl⟩

theorem lowerLevel_spec (fuel : Nat) (sl : SL K V) (hf : sl.level < fuel) (h1 : 1 ≤ sl.level)
    (hlen : sl.level ≤ sl.headNext.length) :
    ∃ l, SL.lowerLevel fuel sl = .ret { sl with level := l } ∧ 1 ≤ l ∧ l ≤ sl.level ∧
      ∀ i, l ≤ i → i < sl.level → sl.headNext[i]? = some none := by
  induction fuel generalizing sl with
  | zero => omega
  | succ fuel ih =>
    unfold SL.lowerLevel
    by_cases hgt : sl.level > 1
    · rw [if_pos hgt]
      have hi : sl.level - 1 < sl.headNext.length := by omega
      simp only [idx_of_lt hi, Outcome.ret_bind]
      cases hx : sl.headNext[sl.level - 1] with
      | none =>
        obtain ⟨l, e1, e2, e3, e4⟩ := ih { sl with level := sl.level - 1 } (by simp; omega) (by simp; omega) (by simp; omega)
        refine ⟨l, e1, e2, by simp at e3; omega, ?_⟩
        intro i h1 h2
        by_cases hi2 : i = sl.level - 1
        · subst hi2; rw [List.getElem?_eq_getElem hi, hx]
        · exact e4 i h1 (by simp; omega)
      | some x => exact ⟨sl.level, rfl, h1, Nat.le_refl _, by intros; omega⟩
    · rw [if_neg hgt]; exact ⟨sl.level, rfl, h1, Nat.le_refl _, by intros; omega⟩

theorem lvl_eq_of_node {sl : SL K V} {q : Nat} {n : SLNode K V} (h : sl.nodes[q]? = some n) : sl.lvl q = n.next.length := by
  simp [SL.lvl, h]

theorem SLInvD.remove_miss (hl : impl.Lawful) (h : SLInvD d impl.less sl ids m)
    (p : Pos impl.less sl ids m key iG [] iS G [] S) :
    ∃ sl', sl.remove impl key = .ret (sl', false) ∧ SLInvD d impl.less sl' ids m ∧ (∀ x, sl'.kv x = sl.kv x) ∧
      ∀ r i, sl'.get r i = sl.get r i := by
  obtain ⟨prevs, hp, hprev, hf⟩ := h.findPrevNodes hl p
  have hids : ids = iG ++ iS := by simpa using p.ids_eq
  have h0 := h.store hp
  have hn := h0.next_G (iG := iG) (R := iS) hids
  have hp0 : prevAt prevs 0 = .ret (lastAt sl.lvl 0 iG) := prevAt_of_get (hprev 0 h.level_pos)
  refine ⟨sl.storePrevs prevs, ?_, h0, fun _ => rfl, fun r i => by cases r <;> rfl⟩
  have hn' : (sl.storePrevs prevs).nextAt (lastAt sl.lvl 0 iG) 0 = .ret iS.head? := hn
  cases iS with
  | nil => simp [SL.remove, SL.findRemovePoint, hf, hp0, hn']
  | cons s iS =>
    obtain ⟨e, he, hkv⟩ := mem_kv p.kS (p := s) (by simp)
    obtain ⟨n, hnn, hk, _⟩ := SL.kv_some hkv
    have hd : (sl.storePrevs prevs).deref s = .ret n := idx_of_get hnn
    have hne := SLImpl.ne_stop hl (p.sp.stop e he)
    simp [SL.remove, SL.findRemovePoint, hf, hp0, hn', hd, hk, hne]

/-- Unlinking the node `q` after `iG`, whatever made the search end there. -/
theorem SLInvD.remove_at {less : K → K → Bool} (h : SLInvD d less sl ids m) {q : Nat} {e : K × V} (hids : ids = iG ++ q :: iS)
    (kG : iG.map sl.kv = G.map some) (hkq : sl.kv q = some e) (kS : iS.map sl.kv = S.map some)
    {prevs : List (Option Ref)} (hp : prevs.length = sl.level)
    (hprev : ∀ x, x < sl.level → prevs[x]? = some (some (lastAt sl.lvl x iG)))
    (hf : sl.findPrevNodes impl key = .ret (sl.storePrevs prevs, prevs)) (hne : impl.keyNe e.1 key = false)
    (hsort : SMap.Sorted less (G ++ S)) :
    ∃ sl', sl.remove impl key = .ret (sl', true) ∧ SLInvD d less sl' (iG ++ iS) (G ++ S) ∧
      (∀ x, sl'.kv x = sl.kv x) ∧ (∀ i, sl'.get (.node q) i = sl.get (.node q) i) ∧
      sl'.nodes.length = sl.nodes.length ∧ (∀ x, x ∉ iG → ∀ i, sl'.get (.node x) i = sl.get (.node x) i) := by
  have h0 := h.store hp
  have hn : (sl.storePrevs prevs).nextAt (lastAt sl.lvl 0 iG) 0 = .ret (some q) := h0.next_G (iG := iG) (R := q :: iS) hids
  have hp0 : prevAt prevs 0 = .ret (lastAt sl.lvl 0 iG) := prevAt_of_get (hprev 0 h.level_pos)
  obtain ⟨n, hnn, hk, _⟩ := SL.kv_some hkq
  have hd : (sl.storePrevs prevs).deref q = .ret n := idx_of_get hnn
  have hlq : sl.lvl q = n.next.length := lvl_eq_of_node hnn
  have hq : q ∈ ids := by rw [hids]; simp
  generalize hs0 : sl.storePrevs prevs = s0 at *
  have e_get : ∀ r i, s0.get r i = sl.get r i := by subst hs0; intros; cases ‹Ref› <;> rfl
  have e_lvl : s0.lvl = sl.lvl := by subst hs0; rfl
  have e_kv : s0.kv = sl.kv := by subst hs0; rfl
  have e_n : s0.nodes.length = sl.nodes.length := by subst hs0; rfl
  have e_level : s0.level = sl.level := by subst hs0; rfl
  rw [← e_lvl] at hprev hlq
  rw [← e_level] at hprev hp
  have L : Linked s0.get s0.lvl (iG ++ q :: iS) := by rw [← hids]; exact h0.linked
  have hnd := L.nodup
  have hP : ∀ i, lastAt s0.lvl i iG ≠ .node q := by
    intro i hc
    exact (List.nodup_append.1 hnd).2.2 q (lastAt_node_mem hc).1 q (by simp) rfl
  have hle := h0.lvl_le q hq
  have hl40 := h0.level_le
  obtain ⟨s1, u1, u2, u3, u4⟩ := unlink_spec (prevs := prevs) (p := q) (P := fun i => lastAt s0.lvl i iG)
    (N := fun i => firstAt s0.lvl i iS) n.next.length 0 s0 (by
      intro i _ hi
      refine ⟨hprev i (by omega), L.node_get iG q iS rfl i (by omega), _, L.get_lastAt (by omega)⟩)
  have L1 : Linked s1.get s0.lvl (iG ++ iS) := by
    refine L.remove ?_ ?_
    · intro i hi; exact u3 i (by omega) (by omega)
    · intro r i hn; apply u4; rintro ⟨_, y, z⟩; exact hn ⟨by omega, z⟩
  have L2 : Linked s1.get s1.lvl (iG ++ iS) := L1.congr (fun _ _ => rfl) (fun x _ => u2.lvl x)
  have hs1l := u2.level
  have hpos := h0.level_pos
  obtain ⟨l, w1, w2, w3, w4⟩ := lowerLevel_spec (s1.level + 1) s1 (by omega) (by omega)
    (by rw [u2.head_len, h0.head_len]; omega)
  have hsub : ∀ x ∈ iG ++ iS, x ∈ ids := fun x hx => by rw [hids]; exact mem_add hx
  have g : ∀ r i, SL.get { s1 with level := l, len := s1.len - 1 } r i = s1.get r i := by intro r i; cases r <;> rfl
  refine ⟨{ s1 with level := l, len := s1.len - 1 }, ?_, ?_, ?_, ?_, ?_, ?_⟩
  · simp [SL.remove, SL.findRemovePoint, hf, hp0, hn, hd, hk, hne, u1, w1]
  · refine ⟨L2.congr g (fun _ _ => rfl), ?_, ?_, w2, ?_, ?_, ?_, ?_, ?_, ?_, ?_⟩
    · intro x hx
      show 0 < s1.lvl x
      rw [u2.lvl]; exact h0.lvl_pos x (hsub x hx)
    · intro x hx
      show s1.lvl x ≤ l
      have hx1 := h0.lvl_le x (hsub x hx)
      rw [← u2.lvl x] at hx1
      rcases Nat.lt_or_ge l (s1.lvl x) with hc | hc
      · exfalso
        have := w4 l (Nat.le_refl _) (by omega)
        have hh := L2.head_get l (by omega)
        simp only [SL.get] at hh
        rw [this] at hh
        injection hh with hh
        have := firstAt_none.1 hh.symm x hx
        omega
      · exact hc
    · show l ≤ 40
      omega
    · show s1.headNext.length = 40
      rw [u2.head_len, h0.head_len]
    · show s1.prevsCache.length = 40
      rw [u2.cache, h0.cache_len]
    · show _ ≤ s1.nodes.length
      rw [u2.count]
      have := h0.count; rw [hids] at this
      simp at this ⊢; omega
    · show s1.len - 1 = _
      rw [u2.len, h0.len_d, hids]; simp; omega
    · show (iG ++ iS).map s1.kv = _
      rw [List.map_append, List.map_append, List.map_congr_left (fun x _ => u2.kv x), e_kv, kG,
        List.map_congr_left (fun x _ => u2.kv x), e_kv, kS]
    · exact hsort
  · intro x; show s1.kv x = _; rw [u2.kv, e_kv]
  · intro i; rw [g, u4 _ _ (fun x => hP i x.2.2.symm), e_get]
  · show s1.nodes.length = _; rw [u2.count, e_n]
  · intro x hx i
    rw [g, u4 _ _ (fun y => hx (lastAt_node_mem y.2.2.symm).1), e_get]

theorem SLInvD.remove_hit (hl : impl.Lawful) (h : SLInvD d impl.less sl ids m) {q : Nat} {e : K × V}
    (p : Pos impl.less sl ids m key iG [q] iS G [e] S) :
    ∃ sl', sl.remove impl key = .ret (sl', true) ∧ SLInvD d impl.less sl' (iG ++ iS) (SMap.erase impl.less key m) ∧
      (∀ x, sl'.kv x = sl.kv x) ∧ (∀ i, sl'.get (.node q) i = sl.get (.node q) i) ∧
      sl'.nodes.length = sl.nodes.length ∧ (∀ x, x ∉ iG → ∀ i, sl'.get (.node x) i = sl.get (.node x) i) := by
  obtain ⟨prevs, hp, hprev, hf⟩ := h.findPrevNodes hl p
  have hids : ids = iG ++ q :: iS := by simpa using p.ids_eq
  have hkq : sl.kv q = some e := by have := p.kH; simpa using this
  rw [SMap.erase_split p.sp]
  exact h.remove_at hids p.kG hkq p.kS hp hprev hf (SLImpl.not_ne_hit hl (p.sp.hit e (by simp))) (SMap.sorted_split h.sorted p.sp.eq)

/-! ## Construction and Clear -/

theorem SLInv.new (less : K → K → Bool) : SLInv less (newSkipList : SL K V) [] [] where
  linked := ⟨List.nodup_nil, fun i hi => by
    show (List.replicate 40 none)[i]? = some none
    rw [List.getElem?_replicate, if_pos hi], by simp⟩
  lvl_pos := by simp
  lvl_le := by simp
  level_pos := by simp [newSkipList]
  level_le := by simp [newSkipList]
  head_len := by simp [newSkipList, skipListMaxLevel]
  cache_len := by simp [newSkipList, skipListMaxLevel]
  count := by simp
  len_d := by simp [newSkipList]
  kvs := rfl
  sorted := List.Pairwise.nil

theorem SLInvD.clear {less : K → K → Bool} (h : SLInvD d less sl ids m) : SLInv less sl.clear [] [] where
  linked := ⟨List.nodup_nil, fun i hi => by
    have := h.head_len
    simp only [SL.get, SL.clear, firstAt, List.find?_nil]
    rw [List.getElem?_map, List.getElem?_eq_getElem (by omega)]; rfl, by simp⟩
  lvl_pos := by simp
  lvl_le := by simp
  level_pos := by simp [SL.clear]
  level_le := by simp [SL.clear]
  head_len := by simp [SL.clear, h.head_len]
  cache_len := by simp [SL.clear, h.cache_len]
  count := by simp
  len_d := by simp [SL.clear]
  kvs := rfl
  sorted := List.Pairwise.nil

end Stl4go
