import Verif.Spec.BuiltinSetHash
import Verif.Proofs.BuiltinSet
/-! # Lemmas for `BuiltinSet` with keys that cannot be hashed -/
namespace Stl4go
variable {K α β : Type} [GoHash K]

/-- All keys of a list can be hashed. -/
def AllHash (l : List K) : Prop := ∀ k ∈ l, GoHash.ok k = true

/-- All keys of all maps can be hashed. -/
def MWorld.Hashable (w : MWorld K) : Prop := ∀ i, AllHash (w.maps i)

/-- What a run leaves is fine, and so is its result. -/
def HashLeaves (Q : α → Prop) : Res (MWorld K) α → Prop
  | .ok a w => Q a ∧ w.Hashable
  | .panic w => w.Hashable
  | .diverge => True

/-- Two programs do the same as long as all keys can be hashed, and keep it that way. -/
def SameHash (Q : α → Prop) (x y : GoM (MWorld K) α) : Prop := ∀ w : MWorld K, w.Hashable → x w = y w ∧ HashLeaves Q (x w)

theorem SameHash.bind {Q : α → Prop} {R : β → Prop} {x y : GoM (MWorld K) α} {f g : α → GoM (MWorld K) β} (h : SameHash Q x y)
    (hf : ∀ a, Q a → SameHash R (f a) (g a)) : SameHash R (x >>= f) (y >>= g) := by
  intro w hw
  obtain ⟨e, hl⟩ := h w hw
  simp only [GoM.bind_def, ← e]
  cases hx : x w with
  | ok a w' => rw [hx] at hl; exact hf a hl.1 w' hl.2
  | panic w' => rw [hx] at hl; exact ⟨rfl, hl⟩
  | diverge => exact ⟨rfl, trivial⟩

theorem SameHash.pure {Q : α → Prop} (a : α) (h : Q a) : SameHash (K := K) Q (Pure.pure a) (Pure.pure a) := fun _ hw => ⟨rfl, h, hw⟩

theorem SameHash.ite {Q : α → Prop} {x y x' y' : GoM (MWorld K) α} (c : Prop) [Decidable c] (h : SameHash Q x y) (h' : SameHash Q x' y') :
    SameHash Q (if c then x else x') (if c then y else y') := by
  split
  · exact h
  · exact h'

theorem MWorld.Hashable.put {w : MWorld K} (hw : w.Hashable) (i : Nat) {l : List K} (hl : AllHash l) : (w.put i l).Hashable := by
  intro j
  simp only [MWorld.put]
  split
  · exact hl
  · exact hw j

theorem MWorld.Hashable.keysOf {w : MWorld K} (hw : w.Hashable) (r : MRef) : AllHash (w.keysOf r) := by
  cases r with
  | none => intro k hk; simp [MWorld.keysOf] at hk
  | some i => exact hw i

theorem sameHash_make : SameHash (fun _ => True) (mapMake (K := K)) mapMake := fun w hw =>
  ⟨rfl, trivial, hw.put w.next (l := []) (fun _ h => by cases h)⟩

theorem sameHash_len (s : MRef) : SameHash (fun _ => True) (mapLen (K := K) s) (mapLen s) := fun _ hw => ⟨rfl, trivial, hw⟩

theorem sameHash_range (rt : MapRt K) (hrt : rt.Fair) (s : MRef) : SameHash AllHash (mapRange rt s) (mapRange rt s) := fun _ hw =>
  ⟨rfl, fun k hk => hw.keysOf s k ((hrt _ _).mem_iff.1 hk), hw⟩

theorem sameHash_orderSet (a b : MRef) : SameHash (fun _ => True) (orderSet (K := K) a b) (orderSet a b) :=
  (sameHash_len a).bind fun _ _ => (sameHash_len b).bind fun _ _ => SameHash.ite _ (SameHash.pure _ trivial) (SameHash.pure _ trivial)

section Two
variable {e1 e2 : GoEq K} (he : ∀ x y : K, GoHash.ok x = true → GoHash.ok y = true → e1.eq x y = e2.eq x y)
include he

theorem any_same {l : List K} (hl : AllHash l) {k : K} (hk : GoHash.ok k = true) : l.any (fun e => e1.eq k e) = l.any (fun e => e2.eq k e) := by
  induction l with
  | nil => rfl
  | cons x l ih =>
    simp only [List.any_cons]
    rw [he k x hk (hl x (by simp)), ih (fun y hy => hl y (by simp [hy]))]

theorem sameHash_lookup (s : MRef) {k : K} (hk : GoHash.ok k = true) :
    SameHash (fun _ => True) (@Hashed.lookup K e1 _ s k) (@mapHas K e2 s k) := by
  intro w hw
  simp only [Hashed.lookup, hk, if_true, mapHas]
  exact ⟨by rw [any_same he (hw.keysOf s) hk], trivial, hw⟩

theorem assignKey_same (rep : Bool) {l : List K} (hl : AllHash l) {k : K} (hk : GoHash.ok k = true) :
    @assignKey K e1 rep l k = @assignKey K e2 rep l k ∧ AllHash (@assignKey K e1 rep l k) := by
  have hm : l.map (fun e => if rep && e1.eq k e then k else e) = l.map (fun e => if rep && e2.eq k e then k else e) := by
    apply List.map_congr_left
    intro x hx
    rw [he k x hk (hl x hx)]
  refine ⟨by simp only [assignKey, any_same he hl hk, hm], ?_⟩
  unfold assignKey
  split
  · intro x hx
    obtain ⟨y, hy, rfl⟩ := List.mem_map.mp hx
    split
    · exact hk
    · exact hl y hy
  · intro x hx
    rcases List.mem_append.mp hx with hx | hx
    · exact hl x hx
    · rw [List.mem_singleton.mp hx]; exact hk

theorem sameHash_assign (rt : MapRt K) (s : MRef) {k : K} (hk : GoHash.ok k = true) :
    SameHash (fun _ => True) (@Hashed.assign K e1 _ rt s k) (@mapSet K e2 rt s k) := by
  intro w hw
  simp only [Hashed.assign, hk, if_true, mapSet]
  cases s with
  | none => exact ⟨rfl, hw⟩
  | some i =>
    have := assignKey_same he rt.replace (hw i) hk
    simp only [GoM.modify_apply]
    exact ⟨by rw [this.1], trivial, hw.put i this.2⟩

theorem sameHash_erase (s : MRef) {k : K} (hk : GoHash.ok k = true) :
    SameHash (fun _ => True) (@Hashed.erase K e1 _ s k) (@mapDelete K e2 s k) := by
  intro w hw
  simp only [Hashed.erase, hk, if_true, mapDelete]
  cases s with
  | none => exact ⟨rfl, trivial, hw⟩
  | some i =>
    have hf : (w.maps i).filter (fun e => !e1.eq k e) = (w.maps i).filter (fun e => !e2.eq k e) := by
      apply List.filter_congr
      intro x hx
      rw [he k x hk (hw i x hx)]
    simp only [GoM.modify_apply]
    exact ⟨by rw [hf], trivial, hw.put i (fun x hx => hw i x (List.mem_filter.mp hx).1)⟩

theorem sameHash_setAll (rt : MapRt K) (s : MRef) {ks : List K} (hk : AllHash ks) :
    SameHash (fun _ => True) (@Hashed.setAll K e1 _ rt s ks) (@setAll K e2 rt s ks) := by
  induction ks with
  | nil => exact SameHash.pure _ trivial
  | cons k ks ih => exact (sameHash_assign he rt s (hk k (by simp))).bind fun _ _ => ih (fun x hx => hk x (by simp [hx]))

theorem sameHash_deleteAll (s : MRef) {ks : List K} (hk : AllHash ks) :
    SameHash (fun _ => True) (@Hashed.deleteAll K e1 _ s ks) (@deleteAll K e2 s ks) := by
  induction ks with
  | nil => exact SameHash.pure _ trivial
  | cons k ks ih => exact (sameHash_erase he s (hk k (by simp))).bind fun _ _ => ih (fun x hx => hk x (by simp [hx]))

theorem sameHash_insertN (rt : MapRt K) (s : MRef) {ks : List K} (hk : AllHash ks) :
    SameHash (fun _ => True) (@Hashed.insertN K e1 _ rt s ks) (@bsInsertN K e2 rt s ks) :=
  (sameHash_len s).bind fun _ _ => (sameHash_setAll he rt s hk).bind fun _ _ => (sameHash_len s).bind fun _ _ => SameHash.pure _ trivial

theorem sameHash_insert (rt : MapRt K) (s : MRef) {k : K} (hk : GoHash.ok k = true) :
    SameHash (fun _ => True) (@Hashed.insert K e1 _ rt s k) (@bsInsert K e2 rt s k) :=
  (sameHash_len s).bind fun _ _ => (sameHash_assign he rt s hk).bind fun _ _ => (sameHash_len s).bind fun _ _ => SameHash.pure _ trivial

theorem sameHash_update (rt : MapRt K) (hrt : rt.Fair) (s o : MRef) :
    SameHash (fun _ => True) (@Hashed.update K e1 _ rt s o) (@bsUpdate K e2 rt s o) :=
  (sameHash_range rt hrt o).bind fun _ hks => sameHash_setAll he rt s hks

theorem sameHash_interLoop (rt : MapRt K) (l r : MRef) {ks : List K} (hk : AllHash ks) :
    SameHash (fun _ => True) (@Hashed.interLoop K e1 _ rt l r ks) (@interLoop K e2 rt l r ks) := by
  induction ks with
  | nil => exact SameHash.pure _ trivial
  | cons k ks ih =>
    have ih := ih (fun x hx => hk x (by simp [hx]))
    refine (sameHash_lookup he l (hk k (by simp))).bind fun b _ => SameHash.ite _ ?_ ih
    exact (sameHash_insert he rt r (hk k (by simp))).bind fun _ _ => ih

theorem sameHash_diffLoop (rt : MapRt K) (l r : MRef) {ks : List K} (hk : AllHash ks) :
    SameHash (fun _ => True) (@Hashed.diffLoop K e1 _ rt l r ks) (@diffLoop K e2 rt l r ks) := by
  induction ks with
  | nil => exact SameHash.pure _ trivial
  | cons k ks ih =>
    have ih := ih (fun x hx => hk x (by simp [hx]))
    refine (sameHash_lookup he l (hk k (by simp))).bind fun b _ => SameHash.ite _ ?_ ih
    exact (sameHash_insert he rt r (hk k (by simp))).bind fun _ _ => ih

theorem sameHash_disjointLoop (l : MRef) {ks : List K} (hk : AllHash ks) :
    SameHash (fun _ => True) (@Hashed.disjointLoop K e1 _ l ks) (@disjointLoop K e2 l ks) := by
  induction ks with
  | nil => exact SameHash.pure _ trivial
  | cons k ks ih =>
    have ih := ih (fun x hx => hk x (by simp [hx]))
    exact (sameHash_lookup he l (hk k (by simp))).bind fun b _ => SameHash.ite _ (SameHash.pure _ trivial) ih

theorem sameHash_subsetLoop (l : MRef) {ks : List K} (hk : AllHash ks) :
    SameHash (fun _ => True) (@Hashed.subsetLoop K e1 _ l ks) (@subsetLoop K e2 l ks) := by
  induction ks with
  | nil => exact SameHash.pure _ trivial
  | cons k ks ih =>
    have ih := ih (fun x hx => hk x (by simp [hx]))
    exact (sameHash_lookup he l (hk k (by simp))).bind fun b _ => SameHash.ite _ (SameHash.pure _ trivial) ih

theorem sameHash_subset (rt : MapRt K) (hrt : rt.Fair) (s o : MRef) :
    SameHash (fun _ => True) (@Hashed.isSubsetOf K e1 _ rt s o) (@bsIsSubsetOf K e2 rt s o) :=
  (sameHash_len s).bind fun _ _ => (sameHash_len o).bind fun _ _ => SameHash.ite _ (SameHash.pure _ trivial)
    ((sameHash_range rt hrt s).bind fun _ hks => sameHash_subsetLoop he o hks)

/-- An operation that is given no bad key does what it does in the other model. -/
theorem BOp.sameHash (rt : MapRt K) (hrt : rt.Fair) (op : BOp K) (hk : AllHash op.given) :
    SameHash (fun _ => True) (@BOp.hashed K e1 _ rt op) (@BOp.exec K e2 rt op) := by
  cases op with
  | setOf ks =>
    exact SameHash.bind (Q := fun _ => True) (sameHash_make.bind fun s _ => (sameHash_insertN he rt s hk).bind fun _ _ => SameHash.pure _ trivial)
      fun _ _ => SameHash.pure _ trivial
  | isEmpty r => exact SameHash.bind (Q := fun _ => True) ((sameHash_len r).bind fun _ _ => SameHash.pure _ trivial) fun _ _ => SameHash.pure _ trivial
  | len r => exact (sameHash_len r).bind fun _ _ => SameHash.pure _ trivial
  | clear r =>
    exact SameHash.bind (Q := fun _ => True) ((sameHash_range rt hrt r).bind fun _ hks => sameHash_deleteAll he r hks) fun _ _ => SameHash.pure _ trivial
  | has r k => exact (sameHash_lookup he r (hk k (by simp [BOp.given]))).bind fun _ _ => SameHash.pure _ trivial
  | insert r k => exact (sameHash_insert he rt r (hk k (by simp [BOp.given]))).bind fun _ _ => SameHash.pure _ trivial
  | insertN r ks => exact (sameHash_insertN he rt r hk).bind fun _ _ => SameHash.pure _ trivial
  | remove r k =>
    exact SameHash.bind (Q := fun _ => True) ((sameHash_lookup he r (hk k (by simp [BOp.given]))).bind fun _ _ =>
      (sameHash_erase he r (hk k (by simp [BOp.given]))).bind fun _ _ => SameHash.pure _ trivial) fun _ _ => SameHash.pure _ trivial
  | delete r k => exact (sameHash_erase he r (hk k (by simp [BOp.given]))).bind fun _ _ => SameHash.pure _ trivial
  | removeN r ks =>
    exact SameHash.bind (Q := fun _ => True) ((sameHash_len r).bind fun _ _ => (sameHash_deleteAll he r hk).bind fun _ _ =>
      (sameHash_len r).bind fun _ _ => SameHash.pure _ trivial) fun _ _ => SameHash.pure _ trivial
  | keys r =>
    exact SameHash.bind (Q := fun _ => True) ((sameHash_range rt hrt r).bind fun _ _ => SameHash.pure _ trivial) fun _ _ => SameHash.pure _ trivial
  | update r o => exact (sameHash_update he rt hrt r o).bind fun _ _ => SameHash.pure _ trivial
  | union r o =>
    exact SameHash.bind (Q := fun _ => True) (sameHash_make.bind fun s _ => (sameHash_update he rt hrt s r).bind fun _ _ =>
      (sameHash_update he rt hrt s o).bind fun _ _ => SameHash.pure _ trivial) fun _ _ => SameHash.pure _ trivial
  | inter r o =>
    exact SameHash.bind (Q := fun _ => True) (sameHash_make.bind fun s _ => (sameHash_orderSet r o).bind fun sl _ =>
      (sameHash_range rt hrt sl.1).bind fun _ hks => (sameHash_interLoop he rt sl.2 s hks).bind fun _ _ => SameHash.pure _ trivial)
      fun _ _ => SameHash.pure _ trivial
  | diff r o =>
    exact SameHash.bind (Q := fun _ => True) (sameHash_make.bind fun s _ => (sameHash_range rt hrt r).bind fun _ hks =>
      (sameHash_diffLoop he rt o s hks).bind fun _ _ => SameHash.pure _ trivial) fun _ _ => SameHash.pure _ trivial
  | disjoint r o =>
    exact SameHash.bind (Q := fun _ => True) ((sameHash_orderSet r o).bind fun sl _ => (sameHash_range rt hrt sl.1).bind fun _ hks =>
      sameHash_disjointLoop he sl.2 hks) fun _ _ => SameHash.pure _ trivial
  | subset r o => exact (sameHash_subset he rt hrt r o).bind fun _ _ => SameHash.pure _ trivial
  | superset r o => exact (sameHash_subset he rt hrt o r).bind fun _ _ => SameHash.pure _ trivial

end Two

/-! ## Bad keys -/

variable [GoEq K]

/-- Run, then panic. -/
def thenPanic : Res (MWorld K) α → Res (MWorld K) β
  | .ok _ w | .panic w => .panic w
  | .diverge => .diverge

theorem setAll_bad (rt : MapRt K) (s : MRef) (pre : List K) (k : K) (post : List K) (hk : GoHash.ok k = false) :
    ∀ w : MWorld K, Hashed.setAll rt s (pre ++ k :: post) w = thenPanic (Hashed.setAll rt s pre w) := by
  induction pre with
  | nil => intro w; simp [Hashed.setAll, Hashed.assign, hk, GoM.bind_def, thenPanic]
  | cons x pre ih =>
    intro w
    simp only [List.cons_append, Hashed.setAll, GoM.bind_def]
    cases Hashed.assign rt s x w with
    | ok a w' => exact ih w'
    | panic w' => rfl
    | diverge => rfl

theorem deleteAll_bad (s : MRef) (pre : List K) (k : K) (post : List K) (hk : GoHash.ok k = false) :
    ∀ w : MWorld K, Hashed.deleteAll s (pre ++ k :: post) w = thenPanic (Hashed.deleteAll s pre w) := by
  induction pre with
  | nil => intro w; simp [Hashed.deleteAll, Hashed.erase, hk, GoM.bind_def, thenPanic]
  | cons x pre ih =>
    intro w
    simp only [List.cons_append, Hashed.deleteAll, GoM.bind_def]
    cases Hashed.erase s x w with
    | ok a w' => exact ih w'
    | panic w' => rfl
    | diverge => rfl

omit [GoEq K] in
/-- The first bad key. -/
theorem split_bad {ks : List K} (h : ks.all GoHash.ok = false) :
    ∃ k post, ks = ks.takeWhile GoHash.ok ++ k :: post ∧ GoHash.ok k = false := by
  induction ks with
  | nil => simp at h
  | cons x ks ih =>
    by_cases hx : GoHash.ok x = true
    · obtain ⟨k, post, e, hk⟩ := ih (by simpa [hx] using h)
      refine ⟨k, post, ?_, hk⟩
      rw [List.takeWhile_cons_of_pos hx, List.cons_append, ← e]
    · have hx : GoHash.ok x = false := by simpa using hx
      exact ⟨x, ks, by simp [hx], hx⟩

omit [GoEq K] in
theorem allHash_takeWhile (ks : List K) : AllHash (ks.takeWhile GoHash.ok) := by
  induction ks with
  | nil => intro k hk; simp at hk
  | cons x ks ih =>
    by_cases hx : GoHash.ok x = true
    · rw [List.takeWhile_cons_of_pos hx]
      intro k hk
      rcases List.mem_cons.mp hk with rfl | hk
      · exact hx
      · exact ih k hk
    · rw [List.takeWhile_cons_of_neg hx]; intro k hk; cases hk

/-- An operation with several keys, one of them bad, does what it does for those before, and panics. -/
theorem BOp.hashed_many (rt : MapRt K) (op : BOp K) (hm : op.many = true) (hb : op.given.all GoHash.ok = false) (w : MWorld K) :
    op.hashed rt w = thenPanic ((op.withKeys (op.given.takeWhile GoHash.ok)).hashed rt w) := by
  cases op with
  | setOf ks =>
    obtain ⟨k, post, e, hk⟩ := split_bad hb
    simp only [BOp.given] at e
    simp only [BOp.given, BOp.withKeys, BOp.hashed, Hashed.setOf, Hashed.insertN, GoM.bind_def, mapMake, mapLen]
    rw [e, setAll_bad rt _ _ k post hk, ← e]
    cases Hashed.setAll rt (some w.next) (ks.takeWhile GoHash.ok) _ <;> rfl
  | insertN r ks =>
    obtain ⟨k, post, e, hk⟩ := split_bad hb
    simp only [BOp.given] at e
    simp only [BOp.given, BOp.withKeys, BOp.hashed, Hashed.insertN, GoM.bind_def, mapLen]
    rw [e, setAll_bad rt _ _ k post hk, ← e]
    cases Hashed.setAll rt r (ks.takeWhile GoHash.ok) _ <;> rfl
  | removeN r ks =>
    obtain ⟨k, post, e, hk⟩ := split_bad hb
    simp only [BOp.given] at e
    simp only [BOp.given, BOp.withKeys, BOp.hashed, Hashed.removeN, GoM.bind_def, mapLen]
    rw [e, deleteAll_bad _ _ k post hk, ← e]
    cases Hashed.deleteAll r (ks.takeWhile GoHash.ok) _ <;> rfl
  | _ => simp [BOp.many] at hm

/-- An operation with one key that is bad only panics. -/
theorem BOp.hashed_one (rt : MapRt K) (op : BOp K) (hm : op.many = false) (hb : op.given.all GoHash.ok = false) (w : MWorld K) :
    op.hashed rt w = .panic w := by
  cases op with
  | has r k =>
    have hk : GoHash.ok k = false := by simpa [BOp.given] using hb
    simp [BOp.hashed, Hashed.has, Hashed.lookup, hk, GoM.bind_def]
  | insert r k =>
    have hk : GoHash.ok k = false := by simpa [BOp.given] using hb
    simp [BOp.hashed, Hashed.insert, Hashed.assign, hk, GoM.bind_def, mapLen]
  | remove r k =>
    have hk : GoHash.ok k = false := by simpa [BOp.given] using hb
    simp [BOp.hashed, Hashed.remove, Hashed.lookup, hk, GoM.bind_def]
  | delete r k =>
    have hk : GoHash.ok k = false := by simpa [BOp.given] using hb
    simp [BOp.hashed, Hashed.delete, Hashed.erase, hk, GoM.bind_def]
  | setOf _ => simp [BOp.many] at hm
  | insertN _ _ => simp [BOp.many] at hm
  | removeN _ _ => simp [BOp.many] at hm
  | _ => simp [BOp.given] at hb

omit [GoEq K] in
theorem allHash_iff (ks : List K) : ks.all GoHash.ok = true ↔ AllHash ks := by simp [AllHash, List.all_eq_true]

omit [GoHash K] [GoEq K] in
theorem BOp.given_withKeys (op : BOp K) (hm : op.many = true) (ks : List K) : (op.withKeys ks).given = ks := by
  cases op <;> simp_all [BOp.many, BOp.withKeys, BOp.given]

omit [GoHash K] [GoEq K] in
theorem BOp.valid_withKeys (op : BOp K) (n : Nat) (ks : List K) (h : op.Valid n) : (op.withKeys ks).Valid n := by
  cases op <;> first | exact h | trivial

/-- One call. -/
theorem BOp.callHashed_ok [LawfulGoEq K] (rt : MapRt K) (hrt : rt.Fair) (op : BOp K) (w : MWorld K) (st : BState K) (h : BRel w st) (hw : w.Hashable)
    (hv : op.Valid st.next) :
    st.OkHash op (op.callHashed rt w).1 ∧ BRel (op.callHashed rt w).2 (st.stepHash op) ∧ (op.callHashed rt w).2.Hashable := by
  have good : ∀ op : BOp K, AllHash op.given → op.callHashed rt w = op.call rt w ∧ (op.callHashed rt w).2.Hashable := by
    intro op hk
    have := BOp.sameHash (e1 := inferInstance) (e2 := inferInstance) (fun _ _ _ _ => rfl) rt hrt op hk w hw
    refine ⟨by simp only [BOp.callHashed, BOp.call, this.1]; rfl, ?_⟩
    have hl := this.2
    unfold BOp.callHashed
    cases hx : op.hashed rt w with
    | ok a w' => rw [hx] at hl; exact hl.2
    | panic w' => rw [hx] at hl; exact hl
    | diverge => exact hw
  by_cases hb : op.given.all GoHash.ok = true
  · obtain ⟨e, hh⟩ := good op ((allHash_iff _).1 hb)
    have := op.call_ok rt hrt w st h hv
    simp only [BState.OkHash, BState.stepHash, if_pos hb]
    exact ⟨by rw [e]; exact this.1, by rw [e]; exact this.2, hh⟩
  · have hb' : op.given.all GoHash.ok = false := by simpa using hb
    simp only [BState.OkHash, BState.stepHash, if_neg hb]
    by_cases hm : op.many = true
    · simp only [if_pos hm]
      have hg := op.given_withKeys hm (op.given.takeWhile GoHash.ok)
      obtain ⟨e, hh⟩ := good (op.withKeys (op.given.takeWhile GoHash.ok)) (by rw [hg]; exact allHash_takeWhile _)
      have := (op.withKeys (op.given.takeWhile GoHash.ok)).call_ok rt hrt w st h (op.valid_withKeys _ _ hv)
      rw [← e] at this
      have hnd : (op.withKeys (op.given.takeWhile GoHash.ok)).hashed rt w ≠ .diverge := by
        intro hd
        have h1 := this.1
        simp only [BOp.callHashed, hd] at h1
        cases op <;> simp_all [BOp.many, BOp.withKeys, BState.Ok]
        · rename_i r ks
          cases r <;> simp at h1
          split at h1 <;> cases h1
      have he := op.hashed_many rt hm hb' w
      revert this hh
      simp only [BOp.callHashed, he]
      cases hx : (op.withKeys (op.given.takeWhile GoHash.ok)).hashed rt w with
      | ok a w' => intro hh this; exact ⟨rfl, this.2, hh⟩
      | panic w' => intro hh this; exact ⟨rfl, this.2, hh⟩
      | diverge => exact absurd hx hnd
    · have hm' : op.many = false := by simpa using hm
      simp only [if_neg hm, BOp.callHashed, op.hashed_one rt hm' hb' w]
      exact ⟨trivial, h, hw⟩

theorem MWorld.runHashed_ok [LawfulGoEq K] (rt : MapRt K) (hrt : rt.Fair) (ops : List (BOp K)) : ∀ (w : MWorld K) (st : BState K), BRel w st →
    w.Hashable → st.LegalHash ops → st.MatchesHash ops (w.runHashed rt ops) ∧ (w.afterHashed rt ops).Hashable := by
  induction ops with
  | nil => intro w st _ hw _; exact ⟨rfl, hw⟩
  | cons op ops ih =>
    intro w st h hw hl
    have := op.callHashed_ok rt hrt w st h hw hl.1
    have ih := ih _ _ this.2.1 this.2.2 hl.2
    exact ⟨⟨_, _, rfl, this.1, ih.1⟩, ih.2⟩

end Stl4go
