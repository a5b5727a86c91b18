import Verif.Proofs.BuiltinSetLiveLoop
/-! # Callbacks that do not add members to the set of the loop -/
namespace Stl4go
variable {K σ α β : Type} [GoEq K]

/-- Sets do not tell equal keys apart. -/
def BState.Fine (st : BState K) : Prop := ∀ r a b, GoEq.eq a b = true → st.of r a = st.of r b

theorem LRel.fine [LawfulGoEq K] {w : LiveWorld K} {st : BState K} (h : LRel w st) : st.Fine := fun r _ _ hab => (h.of r).congr hab

omit [GoEq K] in
theorem BState.of_change (st : BState K) (r r' : MRef) (S : K → Bool) : (st.change r S).of r' = if r' = r ∧ r ≠ none then S else st.of r' := by
  cases r with
  | none => simp [BState.change]
  | some i =>
    cases r' with
    | none => simp [BState.of]
    | some j =>
      simp only [BState.change, BState.of]
      by_cases h : j = i <;> simp [h]

omit [GoEq K] in
theorem BState.of_new (st : BState K) (r : MRef) (S : K → Bool) : (st.new S).of r = if r = some st.next then S else st.of r := by
  cases r with
  | none => rfl
  | some j =>
    simp only [BState.new, BState.of]
    by_cases h : j = st.next <;> simp [h]

variable [LawfulGoEq K]

theorem BState.Fine.step {st : BState K} (h : st.Fine) (op : BOp K) : (st.step op).Fine := by
  have ch : ∀ (r : MRef) (S : K → Bool), (∀ a b, GoEq.eq a b = true → S a = S b) → (st.change r S).Fine := by
    intro r S hS r' a b hab
    rw [BState.of_change]
    split
    · exact hS a b hab
    · exact h r' a b hab
  have nw : ∀ (S : K → Bool), (∀ a b, GoEq.eq a b = true → S a = S b) → (st.new S).Fine := by
    intro S hS r' a b hab
    rw [BState.of_new]
    split
    · exact hS a b hab
    · exact h r' a b hab
  have any : ∀ (ks : List K) (a b : K), GoEq.eq a b = true → ks.any (fun k => GoEq.eq a k) = ks.any (fun k => GoEq.eq b k) := by
    intro ks a b hab
    congr 1
    funext k
    exact geq_congr hab k
  cases op with
  | setOf ks => exact nw _ (any ks)
  | isEmpty r => exact h
  | len r => exact h
  | clear r => exact ch r _ (fun _ _ _ => rfl)
  | has r k => exact h
  | insert r k => exact ch r _ (fun a b hab => by simp only [h r a b hab, geq_congr hab])
  | insertN r ks => exact ch r _ (fun a b hab => by simp only [h r a b hab, any ks a b hab])
  | remove r k => exact ch r _ (fun a b hab => by simp only [h r a b hab, geq_congr hab])
  | delete r k => exact ch r _ (fun a b hab => by simp only [h r a b hab, geq_congr hab])
  | removeN r ks => exact ch r _ (fun a b hab => by simp only [h r a b hab, any ks a b hab])
  | keys r => exact h
  | update r o => exact ch r _ (fun a b hab => by simp only [h r a b hab, h o a b hab])
  | union r o => exact nw _ (fun a b hab => by simp only [h r a b hab, h o a b hab])
  | inter r o => exact nw _ (fun a b hab => by simp only [h r a b hab, h o a b hab])
  | diff r o => exact nw _ (fun a b hab => by simp only [h r a b hab, h o a b hab])
  | disjoint r o => exact h
  | subset r o => exact h
  | superset r o => exact h

omit [LawfulGoEq K] in
theorem BState.next_step (st : BState K) (op : BOp K) : st.next ≤ (st.step op).next := by
  have ch : ∀ (r : MRef) (S : K → Bool), (st.change r S).next = st.next := by intro r S; cases r <;> rfl
  cases op <;> simp [BState.step, ch, BState.new]

omit [LawfulGoEq K] in
/-- Operations that do not add to `r`. -/
theorem BState.step_sub (st : BState K) (op : BOp K) (r : MRef) (hr : RefOk st.next r) (ha : op.adds r = false) (k : K) (hk : (st.step op).of r k = true) :
    st.of r k = true := by
  have nw : ∀ S : K → Bool, (st.new S).of r k = true → st.of r k = true := by
    intro S h
    rw [BState.of_new, if_neg hr.ne] at h
    exact h
  have cut : ∀ (r' : MRef) (S : K → Bool), (∀ x, S x = true → st.of r' x = true) → (st.change r' S).of r k = true → st.of r k = true := by
    intro r' S hS h
    rw [BState.of_change] at h
    split at h
    · rename_i h2
      rw [h2.1]
      exact hS k h
    · exact h
  have add : ∀ (r' : MRef) (S : K → Bool), decide (r' = r) = false → (st.change r' S).of r k = true → st.of r k = true := by
    intro r' S hne h
    rw [decide_eq_false_iff_not] at hne
    rw [BState.of_change, if_neg (fun h2 => hne h2.1.symm)] at h
    exact h
  cases op with
  | setOf ks => exact nw _ hk
  | isEmpty r => exact hk
  | len r => exact hk
  | clear r' => exact cut r' _ (fun _ h => (Bool.false_ne_true h).elim) hk
  | has r k => exact hk
  | insert r' k => exact add r' _ ha hk
  | insertN r' ks => exact add r' _ ha hk
  | remove r' k => exact cut r' _ (fun x h => (Bool.and_eq_true _ _ ▸ h).1) hk
  | delete r' k => exact cut r' _ (fun x h => (Bool.and_eq_true _ _ ▸ h).1) hk
  | removeN r' ks => exact cut r' _ (fun x h => (Bool.and_eq_true _ _ ▸ h).1) hk
  | keys r => exact hk
  | update r' o => exact add r' _ ha hk
  | union r' o => exact nw _ hk
  | inter r' o => exact nw _ hk
  | diff r' o => exact nw _ hk
  | disjoint r o => exact hk
  | subset r o => exact hk
  | superset r o => exact hk

theorem RefOk.mono {n m : Nat} (h : n ≤ m) {r : MRef} (hr : RefOk n r) : RefOk m r := by
  cases r with
  | none => trivial
  | some i => exact Nat.lt_of_lt_of_le hr h

/-- What holds during such a loop: nothing is fresh, and at most `m` members are owed. -/
structure BWalk.Calm (r : MRef) (S : K → Bool) (m : Nat) (v : BWalk K) : Prop where
  ref : RefOk v.st.next r
  fine : v.st.Fine
  fresh : ∀ k, v.fresh k = false
  owedIn : ∀ k, v.owed k = true → v.st.of r k = true
  inS : ∀ k, v.st.of r k = true → S k = true
  size : ∃ l, Lists v.owed l ∧ l.length ≤ m

theorem BWalk.Calm.congr {r : MRef} {S : K → Bool} {m : Nat} {v : BWalk K} (h : v.Calm r S m) {a b : K} (hab : GoEq.eq a b = true) : v.owed a = v.owed b := by
  obtain ⟨l, hl, -⟩ := h.size
  exact hl.congr hab

theorem BWalk.Calm.op {r : MRef} {S : K → Bool} {m : Nat} {v : BWalk K} (h : v.Calm r S m) {op : BOp K} (ha : op.adds r = false) : (v.op r op).Calm r S m := by
  have hs := fun k => v.st.step_sub op r h.ref ha k
  refine ⟨h.ref.mono (v.st.next_step op), h.fine.step op, fun k => ?_, fun k hk => ?_, fun k hk => h.inS k (hs k hk), ?_⟩
  · simp only [BWalk.op, h.fresh k, Bool.false_or]
    rcases Bool.eq_false_or_eq_true ((v.st.step op).of r k) with h2 | h2
    · rw [hs k h2]; rfl
    · rw [h2, Bool.and_false]
  · simp only [BWalk.op, Bool.and_eq_true] at hk
    exact hk.2
  · obtain ⟨l, hl, hm⟩ := h.size
    refine ⟨l.filter ((v.st.step op).of r), ⟨hl.1.sublist List.filter_sublist, fun k => ?_⟩, Nat.le_trans (List.length_filter_le _ _) hm⟩
    rw [← List.any_eq_true, hl.any_filter (fun a b hab => h.fine.step op r a b hab)]
    simp [BWalk.op]

theorem BWalk.Calm.visit {r : MRef} {S : K → Bool} {m : Nat} {v : BWalk K} (h : v.Calm r S m) {k : K} (hk : (v.owed k || v.fresh k) = true) :
    ∃ m', m = m' + 1 ∧ v.owed k = true ∧ (v.visit k).Calm r S m' := by
  rw [h.fresh k, Bool.or_false] at hk
  obtain ⟨l, hl, hm⟩ := h.size
  have hd := hl.delete k
  have hlen := hl.delete_length k
  rw [hk] at hlen
  simp only [if_true] at hlen
  refine ⟨m - 1, by omega, hk, h.ref, h.fine, fun x => by simp [BWalk.visit, h.fresh], fun x hx => ?_, h.inS, _, hd, by omega⟩
  simp only [BWalk.visit, Bool.and_eq_true] at hx
  exact h.owedIn x hx.1

omit [LawfulGoEq K] in
/-- A callback keeps what such operations keep. -/
theorem BProg.Runs.keep {r : MRef} {Q : BOp K → Prop} {P : BWalk K → Prop} (hop : ∀ v op, P v → Q op → P (v.op r op)) {p : BProg K α} {v : BWalk K}
    {res : Res (BWalk K) α} (h : p.Runs r v res) : p.Only Q → P v → match (generalizing := false) res with | .ok _ v' => P v' | .panic v' => P v' | .diverge => False := by
  induction h with
  | ret a w => exact fun _ h => h
  | panic w => exact fun _ h => h
  | hang w => exact fun h _ => h.elim
  | call _ _ _ _ ih => exact fun hq h => ih (hq.2 _) (hop _ _ h hq.1)
  | callPanics _ _ => exact fun hq h => hop _ _ h hq.1
  | noSuchSet _ => exact fun _ h => h

omit [LawfulGoEq K] [GoEq K] in
theorem BProg.Only.bind {Q : BOp K → Prop} {p : BProg K α} {f : α → BProg K β} (h : p.Only Q) (hf : ∀ a, (f a).Only Q) : (p.bind f).Only Q := by
  induction p with
  | ret a => exact hf a
  | panic => exact h
  | hang => exact h
  | call op k ih => exact ⟨h.1, fun o => ih o (h.2 o)⟩

omit [LawfulGoEq K] in
/-- Running one after the other. -/
theorem BProg.Runs.of_bind {r : MRef} {f : α → BProg K β} (p : BProg K α) : ∀ {v : BWalk K} {res : Res (BWalk K) β}, (p.bind f).Runs r v res →
    (∃ a v', p.Runs r v (.ok a v') ∧ (f a).Runs r v' res) ∨ (∃ v', p.Runs r v (.panic v') ∧ res = .panic v') ∨ (p.Runs r v .diverge ∧ res = .diverge) := by
  induction p with
  | ret a => intro v res h; exact .inl ⟨a, v, .ret a v, h⟩
  | panic => intro v res h; cases h with | panic => exact .inr (.inl ⟨v, .panic v, rfl⟩)
  | hang => intro v res h; cases h with | hang => exact .inr (.inr ⟨.hang v, rfl⟩)
  | call op k ih =>
    intro v res h
    cases h with
    | call hv ho hne hr =>
      rcases ih _ hr with ⟨a, v', h1, h2⟩ | ⟨v', h1, h2⟩ | ⟨h1, h2⟩
      · exact .inl ⟨a, v', .call hv ho hne h1, h2⟩
      · exact .inr (.inl ⟨v', .call hv ho hne h1, h2⟩)
      · exact .inr (.inr ⟨.call hv ho hne h1, h2⟩)
    | callPanics hv ho => exact .inr (.inl ⟨_, .callPanics hv ho, rfl⟩)
    | noSuchSet hv => exact .inr (.inl ⟨_, .noSuchSet hv, rfl⟩)

omit [LawfulGoEq K] in
theorem BProg.exec_bind (rt : LiveRt K) (extra : Nat) (p : BProg K α) (f : α → BProg K β) :
    (p.bind f).exec rt extra = (do let a ← p.exec rt extra; (f a).exec rt extra) := by
  funext w
  induction p generalizing w with
  | ret a => rfl
  | panic => rfl
  | hang => rfl
  | call op k ih =>
    simp only [BProg.bind, BProg.exec, GoM.bind_def]
    cases op.liveIn rt extra w with
    | ok o w' =>
      simp only
      rw [ih]
      rfl
    | panic w' => rfl
    | diverge => rfl

omit [LawfulGoEq K] in
/-- `ForEach` as `ForEachIf`. -/
theorem forEach_always (rt : LiveRt K) (extra : Nat) (r : MRef) (cb : σ → K → BProg K σ) :
    Live.forEach rt extra r (fun t k => (cb t k).exec rt extra) = Live.range rt extra r (fun t k => (BProg.always cb t k).exec rt extra) := by
  have : (fun (t : σ) (k : K) => (BProg.always cb t k).exec rt extra) = fun t k => do let t ← (cb t k).exec rt extra; return (t, true) := by
    funext t k
    unfold BProg.always
    rw [BProg.exec_bind]
    rfl
  rw [this]
  rfl

/-- Such a loop calls its callback at most as often as there are members. -/
theorem BWalk.Loop.calm {r : MRef} {S : K → Bool} {cb : σ → K → BProg K (σ × Bool)} (hcb : ∀ t k, (cb t k).Tame r) {n : Nat} {t : σ} {v : BWalk K}
    {res : Option (Res (BWalk K) σ)} (h : BWalk.Loop r cb n t v res) : ∀ m, v.Calm r S m → n ≤ m ∧
      match (generalizing := false) res with
      | none => True
      | some (.ok _ v') => ∃ m, v'.Calm r S m
      | some (.panic v') => ∃ m, v'.Calm r S m
      | some .diverge => False := by
  have hop : ∀ m (v : BWalk K) (op : BOp K), v.Calm r S m → op.adds r = false → (v.op r op).Calm r S m := fun m v op hv ha => hv.op ha
  induction h with
  | running t w => intro m hm; exact ⟨by omega, trivial⟩
  | finish hf => intro m hm; exact ⟨by omega, m, hm⟩
  | stop hk hr =>
    intro m hm
    obtain ⟨m', rfl, -, hc⟩ := hm.visit hk
    exact ⟨by omega, m', hr.keep (hop m') (hcb _ _) hc⟩
  | panics hk hr =>
    intro m hm
    obtain ⟨m', rfl, -, hc⟩ := hm.visit hk
    exact ⟨by omega, m', hr.keep (hop m') (hcb _ _) hc⟩
  | hangs hk hr =>
    intro m hm
    obtain ⟨m', rfl, -, hc⟩ := hm.visit hk
    exact (hr.keep (hop m') (hcb _ _) hc).elim
  | goOn hk hr _ ih =>
    intro m hm
    obtain ⟨m', rfl, -, hc⟩ := hm.visit hk
    obtain ⟨h1, h2⟩ := ih m' (hr.keep (hop m') (hcb _ _) hc)
    exact ⟨by omega, h2⟩

/-- The keys noted so far. -/
structure BWalk.Noted (r : MRef) (S : K → Bool) (m : Nat) (v : BWalk K) (l : List K) : Prop where
  calm : v.Calm r S m
  distinct : l.Pairwise (fun x y => GoEq.eq x y = false)
  inS : ∀ x ∈ l, S x = true
  done : ∀ x ∈ l, v.owed x = false
  all : ∀ k, v.st.of r k = true → v.owed k = true ∨ ∃ x ∈ l, GoEq.eq k x = true

theorem BWalk.Noted.op {r : MRef} {S : K → Bool} {m : Nat} {v : BWalk K} {l : List K} (h : v.Noted r S m l) {op : BOp K} (ha : op.adds r = false) :
    (v.op r op).Noted r S m l := by
  refine ⟨h.calm.op ha, h.distinct, h.inS, fun x hx => by simp [BWalk.op, h.done x hx], fun k hk => ?_⟩
  rcases h.all k (v.st.step_sub op r h.calm.ref ha k hk) with h1 | h1
  · left
    simp only [BWalk.op] at hk ⊢
    rw [h1, hk]
    rfl
  · exact .inr h1

theorem BWalk.Noted.visit {r : MRef} {S : K → Bool} {m : Nat} {v : BWalk K} {l : List K} (h : v.Noted r S m l) {k : K} (hk : (v.owed k || v.fresh k) = true) :
    ∃ m', m = m' + 1 ∧ (v.visit k).Noted r S m' (l ++ [k]) := by
  obtain ⟨m', hm, ho, hc⟩ := h.calm.visit hk
  refine ⟨m', hm, hc, ?_, ?_, ?_, ?_⟩
  · rw [List.pairwise_append]
    refine ⟨h.distinct, List.pairwise_singleton _ _, fun x hx y hy => ?_⟩
    rw [List.mem_singleton] at hy
    subst hy
    rcases Bool.eq_false_or_eq_true (GoEq.eq x y) with h2 | h2
    · have := h.calm.congr h2
      rw [h.done x hx, ho] at this
      cases this
    · exact h2
  · intro x hx
    rcases List.mem_append.1 hx with hx | hx
    · exact h.inS x hx
    · rw [List.mem_singleton] at hx
      rw [hx]
      exact h.calm.inS k (h.calm.owedIn k ho)
  · intro x hx
    rcases List.mem_append.1 hx with hx | hx
    · simp [BWalk.visit, h.done x hx]
    · rw [List.mem_singleton] at hx
      rw [hx]
      simp [BWalk.visit, LawfulGoEq.refl]
  · intro x hx
    rcases h.all x hx with h1 | ⟨y, hy, h1⟩
    · rcases Bool.eq_false_or_eq_true (GoEq.eq x k) with h2 | h2
      · exact .inr ⟨k, by simp, h2⟩
      · left
        simp only [BWalk.visit]
        rw [h1, h2]
        rfl
    · exact .inr ⟨y, List.mem_append_left _ hy, h1⟩

theorem BWalk.Loop.noted {r : MRef} {S : K → Bool} {cb : σ → K → BProg K σ} (hcb : ∀ t k, (cb t k).Tame r) {n : Nat} {t : σ × List K} {v : BWalk K}
    {res : Option (Res (BWalk K) (σ × List K))} (h : BWalk.Loop r (BProg.always (BProg.noting cb)) n t v res) : ∀ m, v.Noted r S m t.2 →
      match (generalizing := false) res with
      | some (.ok t' v') => (∃ m, v'.Noted r S m t'.2) ∧ ∀ k, v'.owed k = false
      | _ => True := by
  have step : ∀ {m k t t' go} {v v' : BWalk K}, v.Noted r S m (t.2 ++ [k]) → (BProg.always (BProg.noting cb) t k).Runs r v (.ok (t', go) v') →
      v'.Noted r S m t'.2 ∧ go = true := by
    intro m k t t' go v v' hn hr
    unfold BProg.always BProg.noting at hr
    rcases BProg.Runs.of_bind _ hr with ⟨a, v1, h1, h2⟩ | ⟨v1, -, h2⟩ | ⟨-, h2⟩
    · cases h2
      rcases BProg.Runs.of_bind _ h1 with ⟨a, v2, h3, h4⟩ | ⟨v1, -, h2⟩ | ⟨-, h2⟩
      · cases h4
        exact ⟨h3.keep (P := fun v => v.Noted r S m (t.2 ++ [k])) (fun v op hv ha => hv.op ha) (hcb _ _) hn, rfl⟩
      · cases h2
      · cases h2
    · cases h2
    · cases h2
  induction h with
  | running t w => intro m hm; trivial
  | finish hf => intro m hm; exact ⟨⟨m, hm⟩, hf⟩
  | stop hk hr =>
    intro m hm
    obtain ⟨m', rfl, hc⟩ := hm.visit hk
    exact absurd (step hc hr).2 (by simp)
  | panics hk hr => intro m hm; trivial
  | hangs hk hr => intro m hm; trivial
  | goOn hk hr _ ih =>
    intro m hm
    obtain ⟨m', rfl, hc⟩ := hm.visit hk
    exact ih m' (step hc hr).1

omit [LawfulGoEq K] in
/-- The loop of a sieve. -/
theorem BWalk.Loop.sieve {r : MRef} {st0 : BState K} {p : K → Bool} (hp : ∀ a b, GoEq.eq a b = true → p a = p b) {n : Nat} {t : Unit} {v : BWalk K}
    {res : Option (Res (BWalk K) Unit)} (h : BWalk.Loop r (BProg.always (BProg.sieve r p)) n t v res) :
    (∀ k, v.fresh k = false) → RefOk v.st.next r → (∀ x, v.st.of r x = (st0.of r x && (v.owed x || !p x))) → (∀ r', r' ≠ r → v.st.of r' = st0.of r') →
      match (generalizing := false) res with
      | some (.ok _ v') => ∀ r' x, v'.st.of r' x = (st0.of r' x && !(decide (r' = r) && p x))
      | some (.panic _) => False
      | _ => True := by
  have fin : ∀ {v : BWalk K}, (∀ x, v.st.of r x = (st0.of r x && (v.owed x || !p x))) → (∀ r', r' ≠ r → v.st.of r' = st0.of r') → (∀ x, v.owed x = false) →
      ∀ r' x, v.st.of r' x = (st0.of r' x && !(decide (r' = r) && p x)) := by
    intro v h1 h2 h3 r' x
    by_cases hr : r' = r
    · subst hr
      rw [h1, h3]
      simp
    · rw [h2 r' hr]
      simp [hr]
  have step : ∀ {t : Unit} {k : K} {v : BWalk K} {res : Res (BWalk K) (Unit × Bool)}, (v.owed k || v.fresh k) = true → (BProg.always (BProg.sieve r p) t k).Runs r (v.visit k) res →
      (∀ k, v.fresh k = false) → RefOk v.st.next r → (∀ x, v.st.of r x = (st0.of r x && (v.owed x || !p x))) → (∀ r', r' ≠ r → v.st.of r' = st0.of r') →
      ∃ v', res = .ok ((), true) v' ∧ (∀ k, v'.fresh k = false) ∧ RefOk v'.st.next r ∧ (∀ x, v'.st.of r x = (st0.of r x && (v'.owed x || !p x))) ∧
        (∀ r', r' ≠ r → v'.st.of r' = st0.of r') := by
    intro t k v res hk hr hf hok h1 h2
    unfold BProg.always BProg.sieve at hr
    by_cases hpk : p k = true
    · rw [if_pos hpk] at hr
      have rem : ∀ r' x, (v.st.step (.remove r k)).of r' x = (v.st.of r' x && !(decide (r' = r) && GoEq.eq x k)) := by
        intro r' x
        simp only [BState.step]
        rw [BState.of_change]
        by_cases hr' : r' = r
        · subst hr'
          cases r' with
          | none => simp [BState.of]
          | some i => simp
        · simp [hr']
      cases hr with
      | callPanics hv ho => simp [BState.Ok] at ho
      | noSuchSet hv => exact absurd hok hv
      | call hv ho hne hr =>
        cases hr
        refine ⟨_, rfl, fun x => ?_, hok.mono (v.st.next_step (.remove r k)), fun x => ?_, fun r' hr' => ?_⟩
        · simp only [BWalk.op, BWalk.visit, hf x, Bool.false_and, Bool.false_or, rem]
          cases v.st.of r x <;> simp
        · simp only [BWalk.op, BWalk.visit, rem, h1 x]
          rcases Bool.eq_false_or_eq_true (GoEq.eq x k) with h3 | h3
          · simp [h3, hp _ _ h3, hpk]
          · simp only [h3]
            cases st0.of r x <;> cases v.owed x <;> simp
        · funext x
          simp only [BWalk.op, BWalk.visit, rem]
          rw [h2 r' hr']
          simp [hr']
    · rw [if_neg hpk] at hr
      cases hr
      refine ⟨_, rfl, fun x => by simp [BWalk.visit, hf x], hok, fun x => ?_, h2⟩
      simp only [BWalk.visit, h1 x]
      rcases Bool.eq_false_or_eq_true (GoEq.eq x k) with h3 | h3
      · simp [h3, hp _ _ h3, hpk]
      · simp [h3]
  induction h with
  | running t w => intros; trivial
  | finish hf => intro _ _ h1 h2; exact fin h1 h2 hf
  | stop hk hr =>
    intro h0 hok h1 h2
    obtain ⟨v', he, -⟩ := step hk hr h0 hok h1 h2
    cases he
  | panics hk hr =>
    intro h0 hok h1 h2
    obtain ⟨v', he, -⟩ := step hk hr h0 hok h1 h2
    cases he
  | hangs hk hr => intros; trivial
  | goOn hk hr _ ih =>
    intro h0 hok h1 h2
    obtain ⟨v', he, h3, h4, h5, h6⟩ := step hk hr h0 hok h1 h2
    cases he
    exact ih h3 h4 h5 h6

/-! ## Checking membership -/

theorem rangeLoop_checked (rt : LiveRt K) (extra : Nat) (r : MRef) (b : Nat) (cb : σ → K → BProg K (σ × Bool)) (fuel : Nat) :
    ∀ (seen : List Nat) (t : σ) (w : LiveWorld K) (v : BWalk K), WalkRel r b seen w v →
    Live.rangeLoop rt r b (fun t k => (BProg.checked r cb t k).exec rt extra) fuel seen t w =
      Live.rangeLoop rt r b (fun t k => (cb t k).exec rt extra) fuel seen t w := by
  induction fuel with
  | zero => intro seen t w v _; rfl
  | succ fuel ih =>
    intro seen t w v h
    rcases nextEntry_cases rt r b seen w with ⟨e, en, he, hs⟩ | ⟨en, hf⟩
    · have hc : (BProg.checked r cb t e.key).exec rt extra { w with steps := w.steps + 1 } = (cb t e.key).exec rt extra { w with steps := w.steps + 1 } := by
        cases r with
        | none => cases he
        | some j =>
          have hj : j < w.next := by
            refine Nat.lt_of_not_le fun hle => ?_
            have h0 := h.rel.2.unmade j hle
            simp only [LiveWorld.entries] at he
            rw [h0] at he
            cases he
          have hany : (w.maps j).any (fun x => GoEq.eq e.key x.key) = true := List.any_eq_true.2 ⟨e, he, LawfulGoEq.refl _⟩
          have hv : (BOp.has (some j) e.key).Valid w.next := hj
          simp only [BProg.checked, BProg.exec, GoM.bind_def, BOp.liveIn]
          rw [if_pos hv]
          simp only [BOp.live, GoM.bind_def, Live.has, Live.contains, LiveWorld.entries, hany, GoM.pure_apply]
      have hx := BProg.exec_ok rt extra r b (e.id :: seen) (cb t e.key) { w with steps := w.steps + 1 } (v.visit e.key) ((h.visit he).steps _)
      simp only [Live.rangeLoop, GoM.bind_def, en, hc]
      revert hx
      cases (cb t e.key).exec rt extra { w with steps := w.steps + 1 } with
      | ok a w' =>
        rintro ⟨v', hr, hw⟩
        simp only
        split
        · exact ih (e.id :: seen) a.1 w' v' hw
        · rfl
      | panic w' => intro _; rfl
      | diverge => intro _; rfl
    · simp only [Live.rangeLoop, GoM.bind_def, en]

/-! ## A runtime that never produces new entries -/

omit [GoEq K] [LawfulGoEq K] in
theorem nextEntry_old (rt : LiveRt K) (hrt : ∀ n l, l.length ≤ rt.pick n l) (s : MRef) (b : Nat) (seen : List Nat) (w : LiveWorld K) (e : Entry K)
    (w' : LiveWorld K) (h : Live.nextEntry rt s b seen w = .ok (some e) w') : e.id < b := by
  unfold Live.nextEntry at h
  simp only [List.getElem?_eq_none (hrt _ _), Res.ok.injEq] at h
  have := List.find?_some h.1
  simpa using this

theorem rangeLoop_old (rt : LiveRt K) (hrt : ∀ n l, l.length ≤ rt.pick n l) (extra : Nat) (r : MRef) (b : Nat) (cb : σ → K → BProg K (σ × Bool))
    (hcb : ∀ t k, (cb t k).Ends) (fuel : Nat) : ∀ (seen : List Nat) (t : σ) (w : LiveWorld K) (v : BWalk K), WalkRel r b seen w v →
    (∃ l, Lists v.owed l ∧ l.length < fuel) → Live.rangeLoop rt r b (fun t k => (cb t k).exec rt extra) fuel seen t w ≠ .diverge := by
  induction fuel with
  | zero => rintro seen t w v _ ⟨l, -, hl⟩; omega
  | succ fuel ih =>
    rintro seen t w v h ⟨l, hl, hlen⟩
    rcases nextEntry_cases rt r b seen w with ⟨e, en, he, hs⟩ | ⟨en, hf⟩
    · have hb := nextEntry_old rt hrt r b seen w e _ en
      have ho : v.owed e.key = true := (h.owed _).2 ⟨e, he, hb, hs, LawfulGoEq.refl _⟩
      have hd := hl.delete e.key
      have hdl := hl.delete_length e.key
      rw [ho] at hdl
      simp only [if_true] at hdl
      have h2 := (h.visit he).steps (w.steps + 1)
      have hx := BProg.exec_ok rt extra r b (e.id :: seen) (cb t e.key) _ (v.visit e.key) h2
      have hop : ∀ (v' : BWalk K) (op : BOp K), (v'.st.Fine ∧ ∃ l, Lists v'.owed l ∧ l.length < fuel) → True →
          ((v'.op r op).st.Fine ∧ ∃ l, Lists (v'.op r op).owed l ∧ l.length < fuel) := by
        rintro v' op ⟨hf, l', hl', hlen'⟩ -
        refine ⟨hf.step op, l'.filter ((v'.st.step op).of r), ⟨hl'.1.sublist List.filter_sublist, fun k => ?_⟩, Nat.lt_of_le_of_lt (List.length_filter_le _ _) hlen'⟩
        rw [← List.any_eq_true, hl'.any_filter (fun a b hab => hf.step op r a b hab)]
        simp [BWalk.op]
      have keep := fun (res : Res (BWalk K) (σ × Bool)) (hr : (cb t e.key).Runs r (v.visit e.key) res) =>
        hr.keep (Q := fun _ => True) (P := fun v' => v'.st.Fine ∧ ∃ l, Lists v'.owed l ∧ l.length < fuel) hop (hcb _ _) ⟨h.rel.fine, _, hd, by omega⟩
      simp only [Live.rangeLoop, GoM.bind_def, en]
      revert hx
      cases (cb t e.key).exec rt extra { w with steps := w.steps + 1 } with
      | ok a w' =>
        rintro ⟨v', hr, hw⟩
        simp only
        split
        · exact ih (e.id :: seen) a.1 w' v' hw (keep _ hr).2
        · simp
      | panic w' => intro _; simp
      | diverge => intro hr; exact (keep _ hr).elim
    · simp only [Live.rangeLoop, GoM.bind_def, en, GoM.pure_apply]
      simp

/-! ## Loops that never end -/

omit [LawfulGoEq K] in
/-- A loop that keeps adding a key unequal to all others, with a runtime that produces it next. -/
theorem chase (rt : LiveRt K) (hrt : ∀ n l, rt.pick n l = 0) (f : Nat → K) (hf : ∀ n i, i ≤ n → GoEq.eq (f (n + 1)) (f i) = false)
    (body : Unit → K → GoM (LiveWorld K) (Unit × Bool))
    (hbody : ∀ n w, w.next = 1 → body () (f n) w = .ok ((), true) (w.assign rt.replace 0 (f (n + 1)))) (fuel : Nat) :
    ∀ (n : Nat) (seen : List Nat) (w : LiveWorld K), w.next = 1 → w.ids = n + 1 → w.maps 0 = (List.range (n + 1)).map (fun i => ⟨i, f i⟩) →
      (∀ i, i ∈ seen ↔ i < n) → Live.rangeLoop rt (some 0) 1 body fuel seen () w = .diverge := by
  induction fuel with
  | zero => intros; rfl
  | succ fuel ih =>
    intro n seen w hnext hids hm hs
    have hopen : (w.maps 0).filter (fun e => !seen.contains e.id) = [⟨n, f n⟩] := by
      rw [hm, List.range_succ, List.map_append, List.filter_append, List.filter_eq_nil_iff.2, List.nil_append]
      · rw [List.map_cons, List.map_nil, List.filter_cons, if_pos]
        · rfl
        · simp [hs]
      · intro e he
        obtain ⟨i, hi, rfl⟩ := List.mem_map.1 he
        simp [hs, List.mem_range.1 hi]
    have en : Live.nextEntry rt (some 0) 1 seen w = .ok (some ⟨n, f n⟩) { w with steps := w.steps + 1 } := by
      unfold Live.nextEntry
      simp only [LiveWorld.entries, hopen, hrt]
      rfl
    simp only [Live.rangeLoop, GoM.bind_def, en, hbody n { w with steps := w.steps + 1 } hnext, if_true]
    have hany : (w.maps 0).any (fun e => GoEq.eq (f (n + 1)) e.key) = false := by
      rw [hm, List.any_map, List.any_eq_false]
      intro i hi
      have := List.mem_range.1 hi
      simp [hf n i (by omega)]
    have ha : LiveWorld.assign rt.replace { w with steps := w.steps + 1 } 0 (f (n + 1)) =
        { maps := fun j => if j = 0 then w.maps 0 ++ [⟨w.ids, f (n + 1)⟩] else w.maps j, next := w.next, ids := w.ids + 1, steps := w.steps + 1 } := by
      unfold LiveWorld.assign
      rw [if_neg (by simp [hany])]
      rfl
    rw [ha]
    refine ih (n + 1) (n :: seen) _ hnext (by simp [hids]) ?_ ?_
    · simp only [if_true]
      rw [List.range_succ, List.map_append, hm, hids]
      rfl
    · intro i
      rw [List.mem_cons, hs]
      omega

end Stl4go
