import Verif.Proofs.SkipListMRun
/-!
# The levels of the nodes as a function of the operations and of the random words

Which nodes are linked, and in which order, depends on the operations alone. `replay` computes, along a history, a list parallel to the
map in which every entry carries a label given at its insertion; the levels of the nodes are such labels.
-/
namespace Stl4go
variable {K V α β : Type}

/-! ## randomLevel -/

/-- A list of length `len` may give its next node level `l`. -/
def LevelOpen (len l : Nat) : Prop := l ≤ 3 ∨ (l ≤ 40 ∧ 2 ^ (l - 3) ≤ len)

instance (len l : Nat) : Decidable (LevelOpen len l) := inferInstanceAs (Decidable (_ ∨ _))

theorem bitsLen64_le_iff {k n : Nat} : bitsLen64 k ≤ n ↔ k < 2 ^ n := by
  refine ⟨fun h => ?_, bitsLen64_le⟩
  unfold bitsLen64 at h
  split at h
  · next hk => subst hk; exact Nat.two_pow_pos n
  · next hk => exact (Nat.log2_lt hk).1 (by omega)

theorem randomLevelLoop_iff (len : Nat) (fuel level l : Nat) (h : randomLevelLoop (len : Int) fuel level = .ret l) (j : Nat) :
    j ≤ l ↔ j ≤ level ∧ (j ≤ 3 ∨ 2 ^ (j - 3) ≤ len) := by
  induction fuel generalizing level with
  | zero => simp [randomLevelLoop] at h
  | succ fuel ih =>
    unfold randomLevelLoop at h
    have hcast : ∀ n : Nat, (2 ^ n : Int) = ((2 ^ n : Nat) : Int) := fun n => by simp
    split at h
    · next hc =>
      rw [ih _ h]
      rw [hcast] at hc
      refine ⟨fun ⟨a, b⟩ => ⟨by omega, b⟩, fun ⟨a, b⟩ => ⟨?_, b⟩⟩
      rcases Nat.lt_or_ge j level with h1 | h1
      · omega
      · have : j = level := by omega
        subst this; omega
    · next hc =>
      rw [hcast] at hc
      injection h with h; subst h
      refine ⟨fun a => ⟨a, ?_⟩, fun a => a.1⟩
      rcases Nat.lt_or_ge 3 j with h1 | h1
      · right
        have h2 : 2 ^ (j - 3) ≤ 2 ^ (level - 3) := Nat.pow_le_pow_right (by omega) (by omega)
        omega
      · exact .inl h1

/-- The level of a new node, in closed form: at least `j` if the random word has `j - 1` leading zeros among its 40 low bits and the
length allows it. -/
theorem SL.randomLevel_iff {sl : SL K V} {len : Nat} (hlen : sl.len = len) {rnd l : Nat} (h : sl.randomLevel rnd = .ret l) {j : Nat}
    (hj : 1 ≤ j) : j ≤ l ↔ rnd % 2 ^ 40 < 2 ^ (41 - j) ∧ LevelOpen len j := by
  simp only [SL.randomLevel] at h
  obtain ⟨l', h1, h⟩ := Outcome.bind_ret h
  have hm : skipListMaxLevel = 40 := rfl
  have h : (40 < l' ∧ l = 40) ∨ (l' ≤ 40 ∧ l = l') := by
    split at h <;> (injection h with h; omega)
  rw [hm, Nat.and_two_pow_sub_one_eq_mod, hlen] at h1
  have hi := randomLevelLoop_iff _ _ _ _ h1
  have hb : bitsLen64 (rnd % 2 ^ 40) ≤ 40 := bitsLen64_le (Nat.mod_lt _ (by decide))
  rcases Nat.lt_or_ge 41 j with hj41 | hj41
  · have := (hi 42)
    constructor
    · intro hjl
      omega
    · rintro ⟨_, h3 | ⟨h3, _⟩⟩ <;> omega
  · have hbits : bitsLen64 (rnd % 2 ^ 40) ≤ 41 - j ↔ _ := bitsLen64_le_iff
    rw [← hbits]
    have h2 : j ≤ l ↔ j ≤ l' ∧ j ≤ 40 := by omega
    rw [h2, hi]
    unfold LevelOpen
    omega

/-- The level that a list of length `len` gives its next node if the random word is `rnd`. -/
def levelFor (rnd len : Nat) : Nat := match ({ (newSkipList : SL Unit Unit) with len := len }).randomLevel rnd with
  | .ret l => l
  | _ => 0

theorem SL.randomLevel_eq {sl : SL K V} {len : Nat} (hlen : sl.len = len) (rnd : Nat) : sl.randomLevel rnd = .ret (levelFor rnd len) := by
  obtain ⟨l, hl, _⟩ := sl.randomLevel_spec rnd
  have : ({ (newSkipList : SL Unit Unit) with len := len }).randomLevel rnd = sl.randomLevel rnd := by
    simp only [SL.randomLevel, hlen]
  rw [levelFor, this, hl]

theorem levelFor_iff {rnd len j : Nat} (hj : 1 ≤ j) : j ≤ levelFor rnd len ↔ rnd % 2 ^ 40 < 2 ^ (41 - j) ∧ LevelOpen len j :=
  SL.randomLevel_iff (sl := { (newSkipList : SL Unit Unit) with len := len }) rfl
    (SL.randomLevel_eq (sl := { (newSkipList : SL Unit Unit) with len := len }) rfl rnd) hj

theorem levelFor_pos (rnd len : Nat) : 1 ≤ levelFor rnd len :=
  (levelFor_iff (Nat.le_refl 1)).2 ⟨Nat.mod_lt _ (by decide), .inl (by omega)⟩

/-! ## Labels -/

/-- Labels after an operation; a new entry gets the label `a`. -/
def relabel (less : K → K → Bool) (m : List (K × V)) (a : α) (l : List α) : SMOp K V → List α
  | .insert k _ =>
    let g := (m.filter (fun e => less e.1 k)).length
    if (SMap.find less k m).isSome then l else l.take g ++ a :: l.drop g
  | .remove k =>
    let g := (m.filter (fun e => less e.1 k)).length
    if (SMap.find less k m).isSome then l.take g ++ l.drop (g + 1) else l
  | .clear => []
  | _ => l

/-- Labels after a history that starts at operation number `i`; a new entry gets the label `f i n`, where `i` is the number of the
operation and `n` the length of the map before it. -/
def replay (less : K → K → Bool) (f : Nat → Nat → α) : Nat → List (K × V) → List α → List (SMOp K V) → List α
  | _, _, l, [] => l
  | i, m, l, op :: ops => replay less f (i + 1) (SMap.step less m op).2 (relabel less m (f i m.length) l op) ops

theorem relabel_map (less : K → K → Bool) (m : List (K × V)) (a : α) (l : List α) (op : SMOp K V) (g : α → β) :
    (relabel less m a l op).map g = relabel less m (g a) (l.map g) op := by
  cases op <;> simp only [relabel] <;> (try split) <;> simp

theorem replay_map (less : K → K → Bool) (f : Nat → Nat → α) (g : α → β) (ops : List (SMOp K V)) : ∀ (i : Nat) (m : List (K × V)) (l : List α),
    (replay less f i m l ops).map g = replay less (fun i n => g (f i n)) i m (l.map g) ops := by
  induction ops with
  | nil => intro i m l; rfl
  | cons op ops ih => intro i m l; simp only [replay]; rw [ih, relabel_map]

/-! ## The labels are the levels -/

variable {c : K → K → Int} {sl : SL K V} {ids : List Nat} {m : List (K × V)}

theorem SLInv.exec_labels {impl : SLImpl K} (hl' : impl.Lawful) (h : SLInv impl.less sl ids m) (rnd : Nat) (op : SMOp K V) :
    ∃ sl' ids', sl.exec impl rnd op = .ret (sl', (SMap.step impl.less m op).1) ∧
      SLInv impl.less sl' ids' (SMap.step impl.less m op).2 ∧
      ids'.map sl'.lvl = relabel impl.less m (levelFor rnd m.length) (ids.map sl.lvl) op := by
  have hlt : ∀ x ∈ ids, x < sl.nodes.length := fun x hx => SL.lvl_lt (h.lvl_pos x hx)
  have hlen : sl.len = m.length := by rw [h.len_eq, h.len_m]
  have hsame : ∀ {sl' ob}, sl.exec impl rnd op = .ret (sl', ob) → ∀ x ∈ ids, sl'.lvl x = sl.lvl x := by
    intro sl' ob e x hx
    rcases SL.exec_levels h.level_pos e with hlow | ⟨k, v, l, _, _, hg⟩
    · rw [hlow.lvl]
    · rw [hg.lvl]; exact if_neg (by have := hlt x hx; omega)
  have hgen : ∀ {sl' ob}, sl.exec impl rnd op = .ret (sl', ob) → ids.map sl'.lvl = ids.map sl.lvl :=
    fun e => List.map_congr_left (hsame e)
  cases op with
  | insert k v =>
    obtain ⟨iG, iH, iS, G, H, S, p⟩ := h.pos hl' k
    have hG : (m.filter (fun e => impl.less e.1 k)).length = iG.length := by
      rw [smaller_filter hl'.weak p.sp]; have := congrArg List.length p.kG; simpa using this.symm
    rcases p.cases with ⟨rfl, rfl⟩ | ⟨q, e, rfl, rfl, hkv⟩
    · obtain ⟨sl', a1, a2, _⟩ := h.insert_miss hl' p rnd v
      have ex : sl.exec impl rnd (.insert k v) = .ret (sl', .unit) := by simp [SL.exec, a1]
      have hids : ids = iG ++ iS := by simpa using p.ids_eq
      refine ⟨sl', _, ex, a2, ?_⟩
      have hN : sl'.lvl sl.nodes.length = levelFor rnd m.length := by
        rcases SL.exec_levels h.level_pos ex with hlow | ⟨k, v, l, _, hr, hg⟩
        · have := SL.lvl_lt (a2.lvl_pos sl.nodes.length (by simp))
          rw [hlow.count] at this; omega
        · rw [SL.randomLevel_eq hlen] at hr
          injection hr with hr
          rw [hg.lvl, hr]; simp
      simp only [relabel, SMap.find_split p.sp, hG]
      have hd : ids.map sl.lvl = iG.map sl'.lvl ++ iS.map sl'.lvl := by
        rw [← hgen ex, hids, List.map_append]
      rw [hd, List.take_left' (by simp), List.drop_left' (by simp)]
      simp [hN]
    · obtain ⟨sl', a1, a2, _⟩ := h.insert_hit hl' p rnd v
      have ex : sl.exec impl rnd (.insert k v) = .ret (sl', .unit) := by simp [SL.exec, a1]
      refine ⟨sl', _, ex, a2, ?_⟩
      rw [hgen ex]
      simp [relabel, SMap.find_split p.sp]
  | remove k =>
    obtain ⟨iG, iH, iS, G, H, S, p⟩ := h.pos hl' k
    have hG : (m.filter (fun e => impl.less e.1 k)).length = iG.length := by
      rw [smaller_filter hl'.weak p.sp]; have := congrArg List.length p.kG; simpa using this.symm
    rcases p.cases with ⟨rfl, rfl⟩ | ⟨q, e, rfl, rfl, hkv⟩
    · obtain ⟨sl', a1, a2, _⟩ := h.remove_miss hl' p
      have ex : sl.exec impl rnd (.remove k : SMOp K V) = .ret (sl', .flag false) := by simp [SL.exec, a1]
      refine ⟨sl', ids, by simp [ex, SMap.step, SMap.find_split p.sp], ?_, ?_⟩
      · simp only [SMap.step, SMap.erase_split p.sp]
        have : m = G ++ S := by simpa using p.sp.eq
        rw [← this]; exact a2
      · rw [hgen ex]; simp [relabel, SMap.find_split p.sp]
    · obtain ⟨sl', a1, a2, _⟩ := h.remove_hit hl' p
      have ex : sl.exec impl rnd (.remove k : SMOp K V) = .ret (sl', .flag true) := by simp [SL.exec, a1]
      refine ⟨sl', _, by simp [ex, SMap.step, SMap.find_split p.sp], a2, ?_⟩
      simp only [relabel, SMap.find_split p.sp, hG]
      have hids : ids = iG ++ ([q] ++ iS) := p.ids_eq
      have hd : ids.map sl.lvl = iG.map sl'.lvl ++ ([q].map sl'.lvl ++ iS.map sl'.lvl) := by
        rw [← hgen ex, hids, List.map_append, List.map_append]
      rw [hd, List.take_left' (by simp), ← List.append_assoc, List.drop_left' (by simp)]
      simp
  | clear => exact ⟨sl.clear, [], rfl, h.clear, rfl⟩
  | update k v =>
    obtain ⟨iG, iH, iS, G, H, S, p⟩ := h.pos hl' k
    have hf := h.findNode hl' p
    rcases p.cases with ⟨rfl, rfl⟩ | ⟨q, e, rfl, rfl, hkv⟩
    · exact ⟨sl, ids, by simp [SL.exec, SL.find, hf, SMap.step, SMap.find_split p.sp],
        by simpa [SMap.step, SMap.find_split p.sp] using h, rfl⟩
    · obtain ⟨sl', a1, a2, _⟩ := h.setValue (A := iG) (B := iS) (q := q) (mA := G) (mB := S) (e := e)
        (by rw [p.ids_eq]; rfl) (by rw [p.sp.eq]; rfl) p.kG hkv p.kS v
      have ex : sl.exec impl rnd (.update k v) = .ret (sl', .flag true) := by simp [SL.exec, SL.find, hf, a1]
      refine ⟨sl', ids, by simp [ex, SMap.step, SMap.find_split p.sp], ?_, hgen ex⟩
      simpa [SMap.step, SMap.find_split p.sp, SMap.insert_hit hl'.weak p.sp] using a2
  | find k =>
    obtain ⟨iG, iH, iS, G, H, S, p⟩ := h.pos hl' k
    refine ⟨sl, ids, ?_, h, rfl⟩
    have hf := h.findNode hl' p
    rcases p.cases with ⟨rfl, rfl⟩ | ⟨q, e, rfl, rfl, hkv⟩
    · simp [SL.exec, SL.find, hf, SMap.step, SMap.find_split p.sp]
    · obtain ⟨n, hn, _, hv⟩ := SL.kv_some hkv
      simp [SL.exec, SL.find, hf, SMap.step, SMap.find_split p.sp, SL.readPtr, SL.deref, idx_of_get hn, hv]
  | has k =>
    obtain ⟨iG, iH, iS, G, H, S, p⟩ := h.pos hl' k
    refine ⟨sl, ids, ?_, h, rfl⟩
    have hf := h.findNode hl' p
    rcases p.cases with ⟨rfl, rfl⟩ | ⟨q, e, rfl, rfl, hkv⟩ <;>
      simp [SL.exec, SL.has, hf, SMap.step, SMap.find_split p.sp]
  | len => exact ⟨sl, ids, by simp [SL.exec, SL.length, SMap.step, h.len_eq, h.len_m], h, rfl⟩
  | isEmpty =>
    refine ⟨sl, ids, ?_, h, rfl⟩
    have := h.len_m
    simp only [SL.exec, SL.isEmpty, SMap.step, h.len_eq]
    cases m with
    | nil => simp at this; simp [this]
    | cons e m => simp at this; simp [this]; omega
  | iterate =>
    refine ⟨sl, ids, ?_, h, rfl⟩
    have := h.observe (A := []) (B := ids) rfl h.kvs
    simp [SL.exec, h.iterate, this, SMap.step]
  | lowerBound k =>
    obtain ⟨iG, iH, iS, G, H, S, p⟩ := h.pos hl' k
    refine ⟨sl, ids, ?_, h, rfl⟩
    have := h.observe p.ids_eq p.kHS
    simp [-List.head?_append, SL.exec, SL.lowerBoundIter, h.lowerBound hl' p, this, SMap.step, SMap.lower_split hl'.weak p.sp]
  | upperBound k =>
    obtain ⟨iG, iH, iS, G, H, S, p⟩ := h.pos hl' k
    refine ⟨sl, ids, ?_, h, rfl⟩
    have := h.observe (A := iG ++ iH) (B := iS) (by rw [p.ids_eq]; simp) p.kS
    simp [SL.exec, SL.upperBoundIter, h.upperBound hl' p, this, SMap.step, SMap.upper_split hl'.weak p.sp]

/-- Operation number `i` draws the word `w i`. -/
def withWords (w : Nat → Nat) : Nat → List (SMOp K V) → List (Nat × SMOp K V)
  | _, [] => []
  | i, op :: ops => (w i, op) :: withWords w (i + 1) ops

theorem opsOf_withWords (w : Nat → Nat) (i : Nat) (ops : List (SMOp K V)) : opsOf (withWords w i ops) = ops := by
  induction ops generalizing i with
  | nil => rfl
  | cons op ops ih => simp only [withWords, opsOf, List.map_cons]; exact congrArg _ (ih (i + 1))

theorem SLInv.run_labels_impl {impl : SLImpl K} (hl : impl.Lawful) (w : Nat → Nat) (ops : List (SMOp K V)) : ∀ {sl : SL K V} {ids : List Nat} {m : List (K × V)} (i : Nat),
    SLInv impl.less sl ids m →
    ∃ sl' ids' obs, SL.run impl sl (withWords w i ops) = .ret (sl', obs) ∧
      SLInv impl.less sl' ids' (SMap.run impl.less m ops).2 ∧
      ids'.map sl'.lvl = replay impl.less (fun i n => levelFor (w i) n) i m (ids.map sl.lvl) ops := by
  induction ops with
  | nil => intro sl ids m i h; exact ⟨sl, ids, [], rfl, h, rfl⟩
  | cons op ops ih =>
    intro sl ids m i h
    obtain ⟨s1, i1, a1, a2, a3⟩ := h.exec_labels hl (w i) op
    obtain ⟨s2, i2, obs, b1, b2, b3⟩ := ih (i + 1) a2
    refine ⟨s2, i2, (SMap.step impl.less m op).1 :: obs, ?_, b2, ?_⟩
    · simp only [withWords, SL.run, a1, Outcome.ret_bind, b1]; rfl
    · rw [b3, a3]; rfl

theorem SLInv.run_labels (hl : LawfulCmp c) (w : Nat → Nat) (ops : List (SMOp K V)) {sl : SL K V} {ids : List Nat} {m : List (K × V)} (i : Nat)
    (h : SLInv (SLImpl.func c).less sl ids m) :
    ∃ sl' ids' obs, SL.run (.func c) sl (withWords w i ops) = .ret (sl', obs) ∧
      SLInv (SLImpl.func c).less sl' ids' (SMap.run (SLImpl.func c).less m ops).2 ∧
      ids'.map sl'.lvl = replay (SLImpl.func c).less (fun i n => levelFor (w i) n) i m (ids.map sl.lvl) ops :=
  SLInv.run_labels_impl (impl := .func c) hl w ops i h

/-! ## Where the labels come from -/

/-- The label of an entry is the number of its `Insert` and the length of the list at that moment. At most `T` entries were
inserted when the list was shorter than `T`. -/
structure Sources (i n : Nat) (l : List (Nat × Nat)) : Prop where
  len : l.length = n
  nodup : (l.map Prod.fst).Nodup
  lt : ∀ s ∈ l, s.1 < i
  few : ∀ T, (l.filter (fun s => s.2 < T)).length ≤ T

theorem Sources.sub {i i' n' : Nat} {l l' : List (Nat × Nat)} (h : Sources i n l) (hs : l'.Sublist l) (hi : i ≤ i') (hn : l'.length = n') :
    Sources i' n' l' where
  len := hn
  nodup := h.nodup.sublist (hs.map _)
  lt := fun s hx => Nat.lt_of_lt_of_le (h.lt s (hs.subset hx)) hi
  few := fun T => Nat.le_trans (hs.filter _).length_le (h.few T)

theorem Sources.add {i n : Nat} {A B : List (Nat × Nat)} (h : Sources i n (A ++ B)) : Sources (i + 1) (n + 1) (A ++ (i, n) :: B) where
  len := by have := h.len; simp at this ⊢; omega
  nodup := by
    have h1 := h.nodup
    have h2 : ∀ s ∈ A ++ B, s.1 ≠ i := fun s hs => by have := h.lt s hs; omega
    simp only [List.map_append, List.map_cons] at h1 ⊢
    rw [List.nodup_append] at h1 ⊢
    refine ⟨h1.1, List.nodup_cons.2 ⟨?_, h1.2.1⟩, ?_⟩
    · rw [List.mem_map]; rintro ⟨s, hs, e⟩; exact h2 s (by simp [hs]) e
    · intro x hx y hy
      rcases List.mem_cons.1 hy with rfl | hy
      · obtain ⟨s, hs, rfl⟩ := List.mem_map.1 hx
        exact h2 s (by simp [hs])
      · exact h1.2.2 x hx y hy
  lt := by
    intro s hs
    rcases List.mem_append.1 hs with hs | hs
    · have := h.lt s (by simp [hs]); omega
    · rcases List.mem_cons.1 hs with rfl | hs
      · simp
      · have := h.lt s (by simp [hs]); omega
  few := by
    intro T
    rcases Nat.lt_or_ge n T with hT | hT
    · refine Nat.le_trans (List.length_filter_le _ _) ?_
      have := h.len
      simp at this ⊢; omega
    · have := h.few T
      simp only [List.filter_append, List.filter_cons] at this ⊢
      rw [if_neg (by simpa using hT)]
      exact this

theorem SMap.insert_length_split {less : K → K → Bool} {m G H S : List (K × V)} {k : K} {v : V} (hw : StrictWeak less) (sp : SSplit less k m G H S) :
    (SMap.insert less k v m).length = m.length + (if (SMap.find less k m).isSome then 0 else 1) := by
  rcases sp.cases with rfl | ⟨e, rfl⟩
  · rw [SMap.insert_miss hw sp, SMap.find_split sp, sp.eq]; simp; omega
  · rw [SMap.insert_hit hw sp, SMap.find_split sp, sp.eq]; simp

theorem Sources.relabel {less : K → K → Bool} {m : List (K × V)} {l : List (Nat × Nat)} {i : Nat} (hw : StrictWeak less) (hs : SMap.Sorted less m)
    (h : Sources i m.length l) (op : SMOp K V) :
    Sources (i + 1) (SMap.step less m op).2.length (Stl4go.relabel less m (i, m.length) l op) := by
  have hself : Sources (i + 1) m.length l := h.sub (List.Sublist.refl _) (by omega) h.len
  cases op with
  | insert k v =>
    obtain ⟨G, H, S, sp⟩ := SSplit.exists hw k m hs
    simp only [SMap.step, SMap.insert_length_split hw sp, Stl4go.relabel]
    split
    · exact hself
    · refine Sources.add ?_
      rw [List.take_append_drop]; exact h
  | remove k =>
    obtain ⟨G, H, S, sp⟩ := SSplit.exists hw k m hs
    simp only [SMap.step, SMap.erase_split sp, Stl4go.relabel, SMap.find_split sp, smaller_filter hw sp]
    have hm := congrArg List.length sp.eq
    have hlen := h.len
    rcases sp.cases with rfl | ⟨e, rfl⟩
    · simp at hm ⊢
      rw [← hm]; exact hself
    · simp at hm ⊢
      refine h.sub ?_ (by omega) (by simp; omega)
      have h1 := (List.Sublist.refl (l.take G.length)).append (List.drop_sublist 1 (l.drop G.length))
      rw [List.drop_drop, List.take_append_drop] at h1
      exact h1
  | clear => exact h.sub (List.nil_sublist _) (by omega) rfl
  | update k v =>
    obtain ⟨G, H, S, sp⟩ := SSplit.exists hw k m hs
    simp only [SMap.step, Stl4go.relabel]
    split
    · next hf => rw [SMap.insert_length_split hw sp, if_pos hf]; exact hself
    · exact hself
  | _ => exact hself

theorem sources_replay_impl {impl : SLImpl K} (hl' : impl.Lawful) (ops : List (SMOp K V)) : ∀ {sl : SL K V} {ids : List Nat} {m : List (K × V)} {l : List (Nat × Nat)} (i : Nat),
    SLInv impl.less sl ids m → Sources i m.length l →
    Sources (i + ops.length) (SMap.run impl.less m ops).2.length (replay impl.less Prod.mk i m l ops) := by
  induction ops with
  | nil => intro sl ids m l i _ h; exact h
  | cons op ops ih =>
    intro sl ids m l i hi h
    obtain ⟨s1, i1, _, a2⟩ := hi.exec hl' 0 op
    have := ih (i + 1) a2 (h.relabel hl'.weak hi.sorted op)
    simp only [List.length_cons, SMap.run, replay]
    rw [show i + (ops.length + 1) = i + 1 + ops.length by omega]
    exact this

theorem sources_replay (hl : LawfulCmp c) (ops : List (SMOp K V)) {sl : SL K V} {ids : List Nat} {m : List (K × V)} {l : List (Nat × Nat)} (i : Nat)
    (h : SLInv (SLImpl.func c).less sl ids m) (hs : Sources i m.length l) :
    Sources (i + ops.length) (SMap.run (SLImpl.func c).less m ops).2.length (replay (SLImpl.func c).less Prod.mk i m l ops) :=
  sources_replay_impl (impl := .func c) hl ops i h hs

end Stl4go
