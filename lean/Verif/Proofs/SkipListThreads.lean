import Verif.Spec.SkipListThreads
import Verif.Proofs.SkipListForEach
/-! # Lemmas for C180: interleavings of programs on a skip list whose links stay -/
namespace Stl4go
variable {K V α β : Type}

@[simp] theorem SGThread.bind_eq (x : SGThread K V α) (f : α → SGThread K V β) : x >>= f = x.bind f := rfl
@[simp] theorem SGThread.pure_eq (a : α) : (pure a : SGThread K V α) = .ret a := rfl

/-! ## Lists that differ in values only -/

/-- The list with the value of node `p` replaced. -/
def SL.withVal (sl : SL K V) (p : Nat) (v : V) : SL K V := { sl with nodes := sl.nodes.modify p (fun n => { n with value := v }) }

theorem SL.deref_cases (sl : SL K V) (p : Nat) :
    (∃ n, sl.nodes[p]? = some n ∧ sl.deref p = .ret n ∧ p < sl.nodes.length) ∨ (sl.nodes[p]? = none ∧ sl.deref p = .panic ∧ sl.nodes.length ≤ p) := by
  cases e : sl.nodes[p]? with
  | none => exact .inr ⟨rfl, by simp [SL.deref, idx, e], by simpa using e⟩
  | some n => exact .inl ⟨n, rfl, by simp [SL.deref, idx, e], by
      rcases Nat.lt_or_ge p sl.nodes.length with h | h
      · exact h
      · rw [List.getElem?_eq_none h] at e; exact nomatch e⟩

theorem SL.setValue_withVal (sl : SL K V) (p : Nat) (v : V) : sl.setValue p v = if p < sl.nodes.length then .ret (sl.withVal p v) else .panic := by
  rcases sl.deref_cases p with ⟨n, e1, e2, e3⟩ | ⟨e1, e2, e3⟩
  · rw [if_pos e3]
    simp only [SL.setValue, e2, Outcome.ret_bind, Outcome.pure_eq, SL.withVal]
    congr 2
    apply List.ext_getElem?
    intro q
    rw [List.getElem?_modify, List.getElem?_set]
    by_cases h : p = q
    · subst h; rw [if_pos rfl, if_pos e3, e1]; simp
    · simp [h]
  · rw [if_neg (by omega)]
    simp only [SL.setValue, e2]
    rfl

theorem SL.withVal_blank (sl : SL K V) (p : Nat) (v : V) : (sl.withVal p v).blank = sl.blank := by
  simp only [SL.blank, SL.withVal]
  congr 1
  apply List.ext_getElem?
  intro q
  rw [List.getElem?_map, List.getElem?_map, List.getElem?_modify]
  by_cases h : p = q
  · subst h; cases sl.nodes[p]? <;> simp
  · simp [h]

theorem SL.withVal_valAt (sl : SL K V) (p : Nat) (v : V) (q : Nat) :
    (sl.withVal p v).valAt q = if q = p then (sl.valAt q).map (fun _ => v) else sl.valAt q := by
  simp only [SL.valAt, SL.withVal]
  rw [List.getElem?_modify]
  by_cases h : p = q
  · subst h; cases sl.nodes[p]? <;> simp
  · rw [if_neg (fun e => h e.symm)]; simp [h]

section
variable {sl sl' : SL K V}

theorem blank_level (e : sl.blank = sl'.blank) : sl.level = sl'.level := congrArg (fun s : SL K Unit => s.level) e
theorem blank_len (e : sl.blank = sl'.blank) : sl.len = sl'.len := congrArg (fun s : SL K Unit => s.len) e
theorem blank_head (e : sl.blank = sl'.blank) : sl.headNext = sl'.headNext := congrArg (fun s : SL K Unit => s.headNext) e
theorem blank_cache (e : sl.blank = sl'.blank) : sl.prevsCache = sl'.prevsCache := congrArg (fun s : SL K Unit => s.prevsCache) e
theorem blank_length (e : sl.blank = sl'.blank) : sl.nodes.length = sl'.nodes.length := by
  have := congrArg (fun s => s.nodes.length) e
  simpa [SL.blank] using this

theorem blank_node (e : sl.blank = sl'.blank) (p : Nat) :
    (sl.nodes[p]? = none ∧ sl'.nodes[p]? = none) ∨ ∃ n n', sl.nodes[p]? = some n ∧ sl'.nodes[p]? = some n' ∧ n.key = n'.key ∧ n.next = n'.next := by
  have h := congrArg (fun s => s.nodes[p]?) e
  simp only [SL.blank, List.getElem?_map] at h
  cases e1 : sl.nodes[p]? with
  | none =>
    cases e2 : sl'.nodes[p]? with
    | none => exact .inl ⟨rfl, rfl⟩
    | some n' => rw [e1, e2] at h; exact nomatch h
  | some n =>
    cases e2 : sl'.nodes[p]? with
    | none => rw [e1, e2] at h; exact nomatch h
    | some n' =>
      rw [e1, e2] at h
      simp only [Option.map_some, Option.some.injEq, SLNode.mk.injEq, true_and] at h
      exact .inr ⟨n, n', rfl, rfl, h.1, h.2⟩

theorem blank_deref (e : sl.blank = sl'.blank) (p : Nat) :
    (sl.deref p = .panic ∧ sl'.deref p = .panic) ∨ ∃ n n', sl.deref p = .ret n ∧ sl'.deref p = .ret n' ∧ n.key = n'.key ∧ n.next = n'.next := by
  rcases blank_node e p with ⟨a, b⟩ | ⟨n, n', a, b, c⟩
  · exact .inl ⟨by simp [SL.deref, idx, a], by simp [SL.deref, idx, b]⟩
  · exact .inr ⟨n, n', by simp [SL.deref, idx, a], by simp [SL.deref, idx, b], c⟩

theorem blank_nextAt (e : sl.blank = sl'.blank) (r : Ref) (i : Nat) : sl.nextAt r i = sl'.nextAt r i := by
  cases r with
  | head => simp only [SL.nextAt, blank_head e]
  | node p =>
    simp only [SL.nextAt]
    rcases blank_deref e p with ⟨a, b⟩ | ⟨n, n', a, b, _, c⟩
    · rw [a, b]
    · rw [a, b, Outcome.ret_bind, Outcome.ret_bind, c]

theorem blank_ext (e : sl.blank = sl'.blank) (h : ∀ p, sl.valAt p = sl'.valAt p) : sl = sl' := by
  have hn : sl.nodes = sl'.nodes := by
    apply List.ext_getElem?
    intro p
    have hp := h p
    rcases blank_node e p with ⟨a, b⟩ | ⟨n, n', a, b, c, d⟩
    · rw [a, b]
    · rw [SL.valAt, SL.valAt, a, b] at hp
      simp only [Option.map_some, Option.some.injEq] at hp
      rw [a, b]
      cases n; cases n'
      simp_all
  cases sl; cases sl'
  simp only [SL.mk.injEq]
  exact ⟨blank_level e, blank_len e, blank_head e, blank_cache e, hn⟩

theorem valAt_deref (e : sl.blank = sl'.blank) {p : Nat} (h : sl.valAt p = sl'.valAt p) :
    (sl.deref p = .panic ∧ sl'.deref p = .panic) ∨ ∃ n n', sl.deref p = .ret n ∧ sl'.deref p = .ret n' ∧ n.value = n'.value := by
  rcases blank_node e p with ⟨a, b⟩ | ⟨n, n', a, b, c⟩
  · exact .inl ⟨by simp [SL.deref, idx, a], by simp [SL.deref, idx, b]⟩
  · refine .inr ⟨n, n', by simp [SL.deref, idx, a], by simp [SL.deref, idx, b], ?_⟩
    rw [SL.valAt, SL.valAt, a, b] at h
    simpa using h

end

/-! ## Steps -/

theorem SGThread.step_setValue (p : Nat) (v : V) (k : SGThread K V α) (sl : SL K V) :
    (SGThread.setValue p v k).step sl = if p < sl.nodes.length then (k, sl.withVal p v) else (.panic, sl) := by
  simp only [SGThread.step, SL.setValue_withVal]
  by_cases h : p < sl.nodes.length
  · rw [if_pos h, if_pos h]
  · rw [if_neg h, if_neg h]

theorem SGThread.step_blank (x : SGThread K V α) (sl : SL K V) : (x.step sl).2.blank = sl.blank := by
  cases x with
  | setValue p v k =>
    rw [SGThread.step_setValue]
    by_cases h : p < sl.nodes.length
    · rw [if_pos h]; exact sl.withVal_blank p v
    · rw [if_neg h]
  | _ => rfl

/-- Looks at values of nodes in `R` only, writes values of nodes in `W` only, whatever values it finds, as long as everything but the values is as in `sl`. -/
def SGThread.Within (sl : SL K V) (R W : Nat → Prop) : SGThread K V α → Prop
  | .level k => (k sl.level).Within sl R W
  | .len k => (k sl.len).Within sl R W
  | .next r i k => ∀ v, sl.nextAt r i = .ret v → (k v).Within sl R W
  | .key p k => ∀ n, sl.deref p = .ret n → (k n.key).Within sl R W
  | .value p k => R p ∧ ∀ v, (k v).Within sl R W
  | .setValue p _ k => W p ∧ k.Within sl R W
  | _ => True

section
variable {R W : Nat → Prop} {sl0 sl sl' : SL K V}

theorem SGThread.Within.load {γ : Type} {o : Outcome γ} {k : γ → SGThread K V α} (h : ∀ v, o = .ret v → (k v).Within sl0 R W) : (SGThread.load o k).Within sl0 R W := by
  cases o with
  | ret v => exact h v rfl
  | _ => trivial

theorem SGThread.Within.step {x : SGThread K V α} (h : x.Within sl0 R W) (e : sl.blank = sl0.blank) : (x.step sl).1.Within sl0 R W := by
  cases x with
  | level k => show (k sl.level).Within sl0 R W; rw [blank_level e]; exact h
  | len k => show (k sl.len).Within sl0 R W; rw [blank_len e]; exact h
  | next r i k => exact Within.load (fun v hv => h v (by rw [← blank_nextAt e]; exact hv))
  | key p k =>
    refine Within.load (fun n hn => ?_)
    rcases blank_deref e p with ⟨a, _⟩ | ⟨n1, n2, a, b, c, _⟩
    · rw [a] at hn; exact nomatch hn
    · rw [a] at hn; injection hn with hn; subst hn; rw [c]; exact h n2 b
  | value p k => exact Within.load (fun n _ => h.2 _)
  | setValue p v k =>
    rw [SGThread.step_setValue]
    by_cases hp : p < sl.nodes.length
    · rw [if_pos hp]; exact h.2
    · rw [if_neg hp]; trivial
  | ret a => trivial
  | panic => trivial
  | diverge => trivial

theorem SGThread.Within.step_agree {x : SGThread K V α} (h : x.Within sl0 R W) (e : sl'.blank = sl.blank) {C : Nat → Prop} (hC : ∀ p, R p → C p)
    (ev : ∀ p, C p → sl'.valAt p = sl.valAt p) : (x.step sl').1 = (x.step sl).1 ∧ ∀ p, C p → (x.step sl').2.valAt p = (x.step sl).2.valAt p := by
  cases x with
  | level k => exact ⟨by show k _ = k _; rw [blank_level e], ev⟩
  | len k => exact ⟨by show k _ = k _; rw [blank_len e], ev⟩
  | next r i k => exact ⟨by show SGThread.load _ k = SGThread.load _ k; rw [blank_nextAt e], ev⟩
  | key p k =>
    refine ⟨?_, ev⟩
    show SGThread.load (sl'.deref p) _ = SGThread.load (sl.deref p) _
    rcases blank_deref e p with ⟨a, b⟩ | ⟨n1, n2, a, b, c, _⟩
    · rw [a, b]
    · rw [a, b]; show k _ = k _; rw [c]
  | value p k =>
    refine ⟨?_, ev⟩
    show SGThread.load (sl'.deref p) _ = SGThread.load (sl.deref p) _
    rcases valAt_deref e (ev p (hC p h.1)) with ⟨a, b⟩ | ⟨n1, n2, a, b, c⟩
    · rw [a, b]
    · rw [a, b]; show k _ = k _; rw [c]
  | setValue p v k =>
    rw [SGThread.step_setValue, SGThread.step_setValue, blank_length e]
    by_cases hp : p < sl.nodes.length
    · rw [if_pos hp, if_pos hp]
      refine ⟨rfl, fun q hq => ?_⟩
      rw [SL.withVal_valAt, SL.withVal_valAt, ev q hq]
    · rw [if_neg hp, if_neg hp]; exact ⟨rfl, ev⟩
  | ret a => exact ⟨rfl, ev⟩
  | panic => exact ⟨rfl, ev⟩
  | diverge => exact ⟨rfl, ev⟩

theorem SGThread.Within.step_spares {x : SGThread K V α} (h : x.Within sl0 R W) (sl : SL K V) {p : Nat} (hp : ¬ W p) : (x.step sl).2.valAt p = sl.valAt p := by
  cases x with
  | setValue q v k =>
    rw [SGThread.step_setValue]
    by_cases hq : q < sl.nodes.length
    · rw [if_pos hq]
      show (sl.withVal q v).valAt p = _
      rw [SL.withVal_valAt, if_neg (fun e : p = q => hp (by rw [e]; exact h.1))]
    · rw [if_neg hq]
  | _ => rfl

/-! ## Alone -/

/-- `n` accesses of a goroutine on its own. -/
def SGThread.alone : Nat → SGThread K V α → SL K V → SGThread K V α × SL K V
  | 0, x, sl => (x, sl)
  | n + 1, x, sl => (x.step sl).1.alone n (x.step sl).2

theorem SGThread.alone_blank (n : Nat) (x : SGThread K V α) (sl : SL K V) : (x.alone n sl).2.blank = sl.blank := by
  induction n generalizing x sl with
  | zero => rfl
  | succ n ih => exact (ih _ _).trans (x.step_blank sl)

theorem SGThread.Within.alone_agree (n : Nat) {x : SGThread K V α} (h : x.Within sl0 R W) (e0 : sl.blank = sl0.blank) (e : sl'.blank = sl.blank) {C : Nat → Prop}
    (hC : ∀ p, R p → C p) (ev : ∀ p, C p → sl'.valAt p = sl.valAt p) :
    (x.alone n sl').1 = (x.alone n sl).1 ∧ ∀ p, C p → (x.alone n sl').2.valAt p = (x.alone n sl).2.valAt p := by
  induction n generalizing x sl sl' with
  | zero => exact ⟨rfl, ev⟩
  | succ n ih =>
    obtain ⟨e1, e2⟩ := h.step_agree e hC ev
    show ((x.step sl').1.alone n (x.step sl').2).1 = ((x.step sl).1.alone n (x.step sl).2).1 ∧ ∀ p, C p →
      ((x.step sl').1.alone n (x.step sl').2).2.valAt p = ((x.step sl).1.alone n (x.step sl).2).2.valAt p
    rw [e1]
    exact ih (h.step e0) ((x.step_blank sl).trans e0) (by rw [x.step_blank, x.step_blank, e]) e2

theorem SGThread.Within.alone_spares (n : Nat) {x : SGThread K V α} (h : x.Within sl0 R W) (e0 : sl.blank = sl0.blank) {p : Nat} (hp : ¬ W p) :
    (x.alone n sl).2.valAt p = sl.valAt p := by
  induction n generalizing x sl with
  | zero => rfl
  | succ n ih => exact (ih (h.step e0) ((x.step_blank sl).trans e0)).trans (h.step_spares sl hp)

theorem SGThread.alone_ended (n : Nat) {x : SGThread K V α} {o : Outcome α} (h : x.ended = some o) (sl : SL K V) : x.alone n sl = (x, sl) := by
  have hs : x.step sl = (x, sl) := by cases x <;> first | rfl | exact nomatch h
  induction n with
  | zero => rfl
  | succ n ih => show (x.step sl).1.alone n (x.step sl).2 = _; rw [hs]; exact ih

theorem SGThread.alone_add (m n : Nat) (x : SGThread K V α) (sl : SL K V) : x.alone (m + n) sl = (x.alone m sl).1.alone n (x.alone m sl).2 := by
  induction m generalizing x sl with
  | zero => rw [Nat.zero_add]; rfl
  | succ m ih => rw [Nat.succ_add]; exact ih _ _

/-- On its own a goroutine ends after `steps` accesses, as `run` says. -/
theorem SGThread.alone_run (x : SGThread K V α) (sl : SL K V) (n : Nat) (hn : x.steps sl ≤ n) :
    (x.alone n sl).1.ended = some (x.run sl).outcome ∧ ∀ sl', (∃ a, x.run sl = .ok a sl') ∨ x.run sl = .panic sl' → (x.alone n sl).2 = sl' := by
  have hpanic : ∀ (n : Nat) (sl : SL K V), ((SGThread.panic : SGThread K V α).alone n sl).1.ended = some (Res.panic (α := α) sl).outcome ∧
      ∀ sl', (∃ a, Res.panic (α := α) sl = .ok a sl') ∨ Res.panic (α := α) sl = .panic sl' → ((SGThread.panic : SGThread K V α).alone n sl).2 = sl' := by
    intro n sl
    rw [SGThread.alone_ended n (o := .panic) rfl]
    exact ⟨rfl, fun m' h => by
      rcases h with ⟨b, e⟩ | e
      · exact nomatch e
      · exact Res.panic.inj e⟩
  induction x generalizing sl n with
  | ret a =>
    rw [SGThread.alone_ended n (o := .ret a) rfl]
    exact ⟨rfl, fun m' h => by
      rcases h with ⟨b, e⟩ | e
      · exact (Res.ok.inj e).2
      · exact nomatch e⟩
  | panic => exact hpanic n sl
  | diverge =>
    rw [SGThread.alone_ended n (o := .diverge) rfl]
    exact ⟨rfl, fun m' h => by
      rcases h with ⟨b, e⟩ | e
      · exact nomatch e
      · exact nomatch e⟩
  | level k ih =>
    cases n with
    | zero => exact absurd hn (by simp [SGThread.steps])
    | succ n => exact ih sl.level sl n (Nat.le_of_succ_le_succ hn)
  | len k ih =>
    cases n with
    | zero => exact absurd hn (by simp [SGThread.steps])
    | succ n => exact ih sl.len sl n (Nat.le_of_succ_le_succ hn)
  | next r i k ih =>
    simp only [SGThread.steps] at hn
    simp only [SGThread.run]
    cases n with
    | zero => split at hn <;> omega
    | succ n =>
      show ((SGThread.load (sl.nextAt r i) k).alone n sl).1.ended = _ ∧ ∀ sl', _ → ((SGThread.load (sl.nextAt r i) k).alone n sl).2 = sl'
      cases e : sl.nextAt r i with
      | ret v => rw [e] at hn; exact ih v sl n (Nat.le_of_succ_le_succ hn)
      | panic => exact hpanic n sl
      | diverge => exact hpanic n sl
  | key p k ih =>
    simp only [SGThread.steps] at hn
    simp only [SGThread.run]
    cases n with
    | zero => split at hn <;> omega
    | succ n =>
      show ((SGThread.load (sl.deref p) _).alone n sl).1.ended = _ ∧ ∀ sl', _ → ((SGThread.load (sl.deref p) _).alone n sl).2 = sl'
      cases e : sl.deref p with
      | ret v => rw [e] at hn; exact ih v.key sl n (Nat.le_of_succ_le_succ hn)
      | panic => exact hpanic n sl
      | diverge => exact hpanic n sl
  | value p k ih =>
    simp only [SGThread.steps] at hn
    simp only [SGThread.run]
    cases n with
    | zero => split at hn <;> omega
    | succ n =>
      show ((SGThread.load (sl.deref p) _).alone n sl).1.ended = _ ∧ ∀ sl', _ → ((SGThread.load (sl.deref p) _).alone n sl).2 = sl'
      cases e : sl.deref p with
      | ret v => rw [e] at hn; exact ih v.value sl n (Nat.le_of_succ_le_succ hn)
      | panic => exact hpanic n sl
      | diverge => exact hpanic n sl
  | setValue p v k ih =>
    simp only [SGThread.steps] at hn
    simp only [SGThread.run]
    cases n with
    | zero => split at hn <;> omega
    | succ n =>
      simp only [SGThread.alone, SGThread.step]
      cases e : sl.setValue p v with
      | ret s => rw [e] at hn; exact ih s n (Nat.le_of_succ_le_succ hn)
      | panic => exact hpanic n sl
      | diverge => exact hpanic n sl

theorem SGThread.alone_enough (x : SGThread K V α) (sl : SL K V) (n : Nat) (hn : x.steps sl ≤ n) : x.alone n sl = x.alone (x.steps sl) sl := by
  obtain ⟨k, rfl⟩ : ∃ k, n = x.steps sl + k := ⟨n - x.steps sl, by omega⟩
  rw [SGThread.alone_add, SGThread.alone_ended k (x.alone_run sl _ (Nat.le_refl _)).1]

theorem SGThread.alone_ended_run (x : SGThread K V α) (sl : SL K V) (n : Nat) {o : Outcome α} (h : (x.alone n sl).1.ended = some o) :
    o = (x.run sl).outcome ∧ x.alone n sl = x.alone (x.steps sl) sl := by
  have e : x.alone (n + x.steps sl) sl = x.alone n sl := by rw [SGThread.alone_add, SGThread.alone_ended _ h]
  have h2 := x.alone_enough sl (n + x.steps sl) (by omega)
  refine ⟨?_, by rw [← e, h2]⟩
  have := (x.alone_run sl (n + x.steps sl) (by omega)).1
  rw [e, h] at this
  exact Option.some.inj this

end

/-! ## Side by side -/

section
variable {R W : Nat → Nat → Prop} {sl0 sl : SL K V}

theorem interleaveSG_blank (s : List Nat) (ts : Nat → SGThread K V α) (sl : SL K V) : (interleaveSG ts sl s).2.blank = sl.blank := by
  induction s generalizing ts sl with
  | nil => rfl
  | cons i s ih => exact (ih _ _).trans ((ts i).step_blank sl)

theorem within_update {ts : Nat → SGThread K V α} (h : ∀ j, (ts j).Within sl0 (R j) (W j)) (e : sl.blank = sl0.blank) (i j : Nat) :
    (if j = i then ((ts i).step sl).1 else ts j).Within sl0 (R j) (W j) := by
  by_cases hj : j = i
  · subst hj; simpa using (h j).step e
  · simpa [hj] using h j

theorem interleaveSG_within (s : List Nat) {ts : Nat → SGThread K V α} (h : ∀ j, (ts j).Within sl0 (R j) (W j)) (e : sl.blank = sl0.blank) (j : Nat) :
    ((interleaveSG ts sl s).1 j).Within sl0 (R j) (W j) := by
  induction s generalizing ts sl with
  | nil => exact h j
  | cons i s ih => exact ih (fun j => within_update h e i j) (((ts i).step_blank sl).trans e)

/-- Values that no goroutine writes stay. -/
theorem interleaveSG_spares (s : List Nat) {ts : Nat → SGThread K V α} (h : ∀ j, (ts j).Within sl0 (R j) (W j)) (e : sl.blank = sl0.blank) {p : Nat}
    (hp : ∀ j ∈ s, ¬ W j p) : (interleaveSG ts sl s).2.valAt p = sl.valAt p := by
  induction s generalizing ts sl with
  | nil => rfl
  | cons i s ih =>
    exact (ih (fun j => within_update h e i j) (((ts i).step_blank sl).trans e) (fun j hj => hp j (List.mem_cons_of_mem _ hj))).trans
      ((h i).step_spares sl (hp i List.mem_cons_self))

/-- A goroutine whose values no other writes is where it would be if it had made its accesses alone. -/
theorem interleaveSG_side (s : List Nat) {ts : Nat → SGThread K V α} (h : ∀ j, (ts j).Within sl0 (R j) (W j)) (e : sl.blank = sl0.blank) (i : Nat)
    (ha : ∀ j, j ≠ i → ∀ p, W j p → ¬ R i p) :
    (interleaveSG ts sl s).1 i = ((ts i).alone (s.count i) sl).1 ∧
    ∀ p, R i p → (interleaveSG ts sl s).2.valAt p = ((ts i).alone (s.count i) sl).2.valAt p := by
  induction s generalizing ts sl with
  | nil => exact ⟨rfl, fun p _ => rfl⟩
  | cons j s ih =>
    have hi := ih (fun k => within_update h e j k) (((ts j).step_blank sl).trans e)
    by_cases hj : i = j
    · subst hj
      rw [List.count_cons_self]
      simp only [if_true] at hi
      exact hi
    · rw [List.count_cons_of_ne (Ne.symm hj)]
      simp only [if_neg hj] at hi
      obtain ⟨a1, a2⟩ := (h i).alone_agree (s.count i) (C := R i) e ((ts j).step_blank sl) (fun p hp => hp)
        (fun p hp => (h j).step_spares sl (fun hw => ha j (Ne.symm hj) p hw hp))
      exact ⟨hi.1.trans a1, fun p hp => (hi.2 p hp).trans (a2 p hp)⟩

end

end Stl4go
