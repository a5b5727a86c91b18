import Verif.Spec.SkipListRefs
import Verif.Proofs.SkipListAny
import Verif.Proofs.SkipListMHist
import Verif.Props.Compare
/-! # Skip lists whose compare function looks at something that changes -/
namespace Stl4go
variable {K V τ T : Type} {sl : SL K V} {ids : List Nat} {m : List (K × V)}

/-- Another order in which the keys are ascending as well. -/
theorem SLInvD.resort {d : Int} {less less' : K → K → Bool} (h : SLInvD d less sl ids m) (hs : SMap.Sorted less' m) : SLInvD d less' sl ids m :=
  ⟨h.linked, h.lvl_pos, h.lvl_le, h.level_pos, h.level_le, h.head_len, h.cache_len, h.count, h.len_d, h.kvs, hs⟩

theorem SLInvD.loosen {d : Int} {less : K → K → Bool} (h : SLInvD d less sl ids m) : SLInvD d (fun _ _ => true) sl ids m :=
  h.resort (List.Pairwise.imp (fun _ => rfl) h.sorted)

theorem runRefs_loose (c : τ → K → K → Int) : ∀ (h : List (RefOp K V τ)) (t : τ) {sl : SL K V} {ids : List Nat} {m : List (K × V)}, SLLoose sl ids m →
    ∃ t' sl' ids' m' obs, SL.runRefs c t sl h = .ret ((t', sl'), obs) ∧ SLLoose sl' ids' m' ∧ RefsRun (fun t => (SLImpl.func (c t)).same) t m h obs m' := by
  intro h
  induction h with
  | nil => intro t sl ids m hi; exact ⟨t, sl, ids, m, [], rfl, hi, .nil t m⟩
  | cons o h ih =>
    intro t sl ids m hi
    cases o with
    | call rnd op =>
      obtain ⟨sl1, ids1, m1, ob, a1, a2, a3⟩ := hi.execA (.func (c t)) rnd op
      obtain ⟨t', sl', ids', m', obs, b1, b2, b3⟩ := ih t a2
      exact ⟨t', sl', ids', m', ob :: obs, by simp only [SL.runRefs, a1, Outcome.ret_bind, b1, Outcome.pure_eq], b2, .call a3 b3⟩
    | change t1 =>
      obtain ⟨t', sl', ids', m', obs, b1, b2, b3⟩ := ih t1 hi
      exact ⟨t', sl', ids', m', obs, b1, b2, .change b3⟩

theorem runRefs_ordered {c : τ → K → K → Int} (hc : ∀ t, LawfulCmp (c t)) : ∀ (h : List (RefOp K V τ)) (t : τ) {sl : SL K V} {ids : List Nat} {m : List (K × V)},
    SLInv (SLImpl.func (c t)).less sl ids m → RefMap.Ordered (fun t => (SLImpl.func (c t)).less) t m h →
    ∃ s, SL.runRefs c t sl h = .ret (s, RefMap.run (fun t => (SLImpl.func (c t)).less) t m h) := by
  intro h
  induction h with
  | nil => intro t sl ids m _ _; exact ⟨_, rfl⟩
  | cons o h ih =>
    intro t sl ids m hi ho
    cases o with
    | call rnd op =>
      obtain ⟨sl1, ids1, a1, a2⟩ := hi.exec (impl := .func (c t)) (hc t) rnd op
      obtain ⟨s, b⟩ := ih t a2 ho
      exact ⟨s, by simp only [SL.runRefs, a1, Outcome.ret_bind, b, Outcome.pure_eq, RefMap.run]⟩
    | change t1 => exact ih t1 (hi.resort ho.1) ho.2

/-! ## Slices as keys -/

theorem EqSeq.andThen [GoEq T] [LawfulGoEq T] {a b c : List T} (h : EqSeq a b) (h' : EqSeq b c) : EqSeq a c := by
  induction h generalizing c with
  | nil => exact h'
  | cons e _ ih => cases h' with | cons e' h' => exact .cons (LawfulGoEq.trans _ _ _ e e') (ih h')

theorem lexLt_iff [GoOrd T] (a b : List T) : lexLt a b = true ↔ LexLt a b := by
  induction a generalizing b with
  | nil =>
    cases b with
    | nil => simp only [lexLt]; exact ⟨fun h => (by cases h), fun h => (by cases h)⟩
    | cons y b => simp only [lexLt]; exact ⟨fun _ => .prefix, fun _ => trivial⟩
  | cons x a ih =>
    cases b with
    | nil => simp only [lexLt]; exact ⟨fun h => (by cases h), fun h => (by cases h)⟩
    | cons y b =>
      simp only [lexLt, Bool.or_eq_true, Bool.and_eq_true, ih]
      constructor
      · rintro (h | ⟨h1, h2⟩)
        · exact .head h
        · exact .tail h1 h2
      · intro h
        cases h with
        | head h => exact .inl h
        | tail h1 h2 => exact .inr ⟨h1, h2⟩

section
variable [GoOrd T] [LawfulGoOrd T]

theorem sliceCmp_spec (m : Mem T) (a b : Sl) : compare (a.read m) (b.read m) = .ret (sliceCmp m a b) ∧
    (sliceCmp m a b < 0 ↔ LexLt (a.read m) (b.read m)) ∧ (sliceCmp m a b = 0 ↔ EqSeq (a.read m) (b.read m)) := by
  obtain ⟨h1, h2, h3, h4⟩ := C66_compare_lex (a.read m) (b.read m)
  have key : compare (a.read m) (b.read m) = .ret (sliceCmp m a b) := by
    simp only [sliceCmp]
    rcases h4 with e | e | e <;> rw [e]
  rw [key] at h1 h2 h3 h4
  simp only [Outcome.ret.injEq] at h1 h2 h3 h4
  refine ⟨key, ?_, h2⟩
  rw [← h1]
  omega

theorem sliceCmp_less (m : Mem T) (a b : Sl) : (SLImpl.func (sliceCmp m)).less a b = lexLt (a.read m) (b.read m) := by
  rw [Bool.eq_iff_iff, lexLt_iff, ← (sliceCmp_spec m a b).2.1]
  simp [SLImpl.less]

theorem lexLt_neither {a b : List T} (h1 : lexLt a b = false) (h2 : lexLt b a = false) : EqSeq a b := by
  have h1 : ¬ LexLt a b := by rw [← lexLt_iff, h1]; simp
  have h2 : ¬ LexLt b a := by rw [← lexLt_iff, h2]; simp
  obtain ⟨g1, g2, g3, g4⟩ := C66_compare_lex a b
  rcases g4 with e | e | e
  · exact absurd (g1.1 e) h1
  · exact g2.1 e
  · exact absurd (g3.1 e) h2

theorem EqSeq.neither {a b : List T} (h : EqSeq a b) : lexLt a b = false := by
  rw [Bool.eq_false_iff, ne_eq, lexLt_iff]
  exact fun h' => h'.not_eqSeq h

theorem lexLt_weak : StrictWeak (lexLt (T := T)) where
  irrefl := fun a => (EqSeq.refl a).neither
  trans := fun a b c h1 h2 => by rw [lexLt_iff] at *; exact h1.trans h2
  incomp := fun a b c h1 h2 h3 h4 => by
    exact ((lexLt_neither h1 h2).andThen (lexLt_neither h3 h4)).neither

theorem sliceCmp_lawful (m : Mem T) : LawfulCmp (sliceCmp m) := by
  have hl : (fun a b => decide (sliceCmp m a b < 0)) = fun a b => lexLt (a.read m) (b.read m) := by
    funext a b; exact sliceCmp_less m a b
  refine ⟨?_, fun a b => ?_⟩
  · rw [hl]
    exact ⟨fun a => lexLt_weak.irrefl _, fun a b c => lexLt_weak.trans _ _ _, fun a b c => lexLt_weak.incomp _ _ _⟩
  · rw [(sliceCmp_spec m a b).2.2, hl]
    exact ⟨fun h => ⟨h.neither, h.symm.neither⟩, fun h => lexLt_neither h.1 h.2⟩
end

/-! ### Maps with other names for the keys -/

section
variable {K' : Type} (f : K → K') (less : K' → K' → Bool)

theorem find_mapKeys (k : K) (m : List (K × V)) : SMap.find less (f k) (mapKeys f m) = SMap.find (fun a b => less (f a) (f b)) k m := by
  induction m with
  | nil => rfl
  | cons e m ih => obtain ⟨k', v⟩ := e; simp only [mapKeys, List.map_cons, SMap.find] at ih ⊢; rw [ih]

theorem insert_mapKeys (k : K) (v : V) (m : List (K × V)) :
    SMap.insert less (f k) v (mapKeys f m) = mapKeys f (SMap.insert (fun a b => less (f a) (f b)) k v m) := by
  induction m with
  | nil => rfl
  | cons e m ih =>
    obtain ⟨k', v'⟩ := e
    simp only [mapKeys, List.map_cons, SMap.insert] at ih ⊢
    rw [ih]
    split
    · rfl
    · split <;> rfl

theorem filter_mapKeys (p : K' → Bool) (m : List (K × V)) : (mapKeys f m).filter (fun e => p e.1) = mapKeys f (m.filter (fun e => p (f e.1))) := by
  rw [mapKeys, List.filter_map]; rfl

theorem step_mapKeys (m : List (K × V)) (op : SMOp K V) : SMap.step less (mapKeys f m) (op.mapKey f) =
    ((SMap.step (fun a b => less (f a) (f b)) m op).1.mapKey f, mapKeys f (SMap.step (fun a b => less (f a) (f b)) m op).2) := by
  cases op with
  | insert k v => simp only [SMOp.mapKey, SMap.step, insert_mapKeys, SMObs.mapKey]
  | remove k =>
    simp only [SMOp.mapKey, SMap.step, find_mapKeys, SMObs.mapKey, SMap.erase]
    rw [filter_mapKeys f (fun x => less (f k) x || less x (f k))]
  | clear => rfl
  | update k v =>
    simp only [SMOp.mapKey, SMap.step, find_mapKeys, insert_mapKeys, SMObs.mapKey]
    split <;> rfl
  | find k => simp only [SMOp.mapKey, SMap.step, find_mapKeys, SMObs.mapKey]
  | has k => simp only [SMOp.mapKey, SMap.step, find_mapKeys, SMObs.mapKey]
  | len => simp [SMOp.mapKey, SMap.step, SMObs.mapKey, mapKeys]
  | isEmpty => simp [SMOp.mapKey, SMap.step, SMObs.mapKey, mapKeys]
  | iterate => rfl
  | lowerBound k =>
    simp only [SMOp.mapKey, SMap.step, SMObs.mapKey]
    rw [filter_mapKeys f (fun x => !less x (f k))]
  | upperBound k =>
    simp only [SMOp.mapKey, SMap.step, SMObs.mapKey]
    rw [filter_mapKeys f (fun x => less (f k) x)]
end

theorem runSlices_kept [GoOrd T] [LawfulGoOrd T] : ∀ (h : List (RefOp Sl V (Mem T))) (m : Mem T) {sl : SL Sl V} {ids : List Nat} {l : List (Sl × V)},
    SLInv (SLImpl.func (sliceCmp m)).less sl ids l → KeysKept m l h →
    ∃ s, SL.runSlices m sl h = .ret (s, (SMap.run lexLt (mapKeys (Sl.read m) l) (contentsOf m h)).1) := by
  intro h
  induction h with
  | nil => intro m sl ids l _ _; exact ⟨_, rfl⟩
  | cons o h ih =>
    intro m sl ids l hi ho
    have hless : (SLImpl.func (sliceCmp m)).less = fun a b => lexLt (a.read m) (b.read m) := by funext a b; exact sliceCmp_less m a b
    cases o with
    | call rnd op =>
      obtain ⟨sl1, ids1, a1, a2⟩ := hi.exec (impl := .func (sliceCmp m)) (sliceCmp_lawful m) rnd op
      rw [hless] at a1
      obtain ⟨s, b⟩ := ih m a2 (by rw [hless]; exact ho)
      refine ⟨s, ?_⟩
      simp only [SL.runSlices, a1, Outcome.ret_bind, b, Outcome.pure_eq, contentsOf, SMap.run, step_mapKeys, hless]
    | change m1 =>
      have hk : mapKeys (Sl.read m1) l = mapKeys (Sl.read m) l := by
        apply List.map_congr_left
        intro e he
        rw [ho.1 e he]
      obtain ⟨s, b⟩ := ih m1 (hi.resort (by
        have hs := hi.sorted
        refine List.Pairwise.imp_of_mem ?_ hs
        intro x y hx hy hxy
        rw [sliceCmp_less] at hxy ⊢
        rw [ho.1 x hx, ho.1 y hy]; exact hxy)) ho.2
      exact ⟨s, by simp only [SL.runSlices, contentsOf, b, hk]⟩

end Stl4go
