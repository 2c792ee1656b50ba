import Verif.Spec.Semantics
/- Lemmas about the checks of semantics. -/
set_option linter.unusedSectionVars false
set_option linter.unusedVariables false

namespace Verif.Semantics
open Verif.Spec.Semantics

section
variable {W U α β : Type}

/-- The state after an experiment. -/
def exec : List (Step W) → W → W
  | [], w => w
  | .do' f :: s, w => exec s (f w)
  | .expect _ :: s, w => exec s w

theorem meets_append : ∀ (s s' : List (Step W)) (w : W), Meets (s ++ s') w ↔ Meets s w ∧ Meets s' (exec s w)
  | [], _, _ => by simp [Meets, exec]
  | .do' f :: s, s', w => meets_append s s' (f w)
  | .expect b :: s, s', w => by
    show b w = true ∧ Meets (s ++ s') w ↔ (b w = true ∧ Meets s w) ∧ Meets s' (exec s w)
    rw [meets_append s s' w, and_assoc]

theorem exec_append : ∀ (s s' : List (Step W)) (w : W), exec (s ++ s') w = exec s' (exec s w)
  | [], _, _ => rfl
  | .do' f :: s, s', w => exec_append s s' (f w)
  | .expect _ :: s, s', w => exec_append s s' w

/-- A check makes an experiment: it passes if and only if all expectations are met and, if so, it leaves the state which the experiment leads to, and returns the given value. -/
def Tracks (m : M W α) (s : List (Step W)) (r : α) : Prop := ∀ w, (Passes m w ↔ Meets s w) ∧ (Passes m w → (m w).1 = exec s w ∧ (m w).2.2 = r)

theorem tracks_test (b : W → Bool) : Tracks (test b) [.expect b] true := fun w => by
  refine ⟨by simp [Passes, test, Meets], fun h => ⟨rfl, ?_⟩⟩
  exact h (b w) (by simp [test])

theorem tracks_act (f : W → W) : Tracks (act f) [.do' f] () := fun w => ⟨by simp [Passes, act, Meets], fun _ => ⟨rfl, rfl⟩⟩

theorem tracks_pure (r : α) : Tracks (pure r : M W α) [] r := fun w => ⟨⟨fun _ => trivial, fun _ b hb => nomatch hb⟩, fun _ => ⟨rfl, rfl⟩⟩

theorem passes_bind {m : M W α} {k : α → M W β} {w : W} : Passes (m >>= k) w ↔ Passes m w ∧ Passes (k (m w).2.2) (m w).1 := by
  unfold Passes
  show (∀ b ∈ (m w).2.1 ++ (k (m w).2.2 (m w).1).2.1, b = true) ↔ _
  simp only [List.mem_append, or_imp, forall_and]

theorem Tracks.bind {m : M W α} {k : α → M W β} {s s' : List (Step W)} {r : α} {q : β} (h : Tracks m s r) (h' : Tracks (k r) s' q) : Tracks (m >>= k) (s ++ s') q := fun w => by
  have hs : (Passes (m >>= k) w ↔ Meets (s ++ s') w) := by
    rw [passes_bind, meets_append, ← (h w).1]
    refine and_congr_right fun hp => ?_
    obtain ⟨e1, e2⟩ := (h w).2 hp
    rw [e1, e2]
    exact (h' _).1
  refine ⟨hs, fun hp => ?_⟩
  rw [passes_bind] at hp
  obtain ⟨e1, e2⟩ := (h w).2 hp.1
  have h2 := hp.2
  rw [e1, e2] at h2
  obtain ⟨f1, f2⟩ := (h' _).2 h2
  rw [exec_append]
  show (k (m w).2.2 (m w).1).1 = _ ∧ (k (m w).2.2 (m w).1).2.2 = _
  rw [e1, e2]
  exact ⟨f1, f2⟩

theorem Tracks.congr {m : M W α} {s s' : List (Step W)} {r : α} (h : Tracks m s r) (hm : ∀ w, Meets s w ↔ Meets s' w) (he : ∀ w, exec s w = exec s' w) : Tracks m s' r := fun w =>
  ⟨(h w).1.trans (hm w), fun hp => by rw [← he]; exact (h w).2 hp⟩

theorem Tracks.iff {m : M W α} {s s' : List (Step W)} {r : α} (h : Tracks m s r) (hm : ∀ w, Meets s w ↔ Meets s' w) (w : W) : Passes m w ↔ Meets s' w := (h w).1.trans (hm w)

variable {t : Ops W U}

theorem tracks_consistency (f : W → Var → Bool) : Tracks (comparisonConsistency f) [.expect (f · .x), .expect (f · .y)] true :=
  (tracks_test _).bind ((tracks_test _).bind (tracks_pure _))

theorem tracks_equality : Tracks (equalityPrerequisites t) (reflexive t .x ++ reflexive t .y ++ [.expect (t.ne · .x .y)]) true := by
  refine Tracks.congr ((tracks_consistency _).bind ((tracks_consistency _).bind (tracks_test _))) (fun w => ?_) (fun w => rfl)
  simp only [reflexive, Meets, List.cons_append, List.nil_append, and_true]
  constructor
  · rintro ⟨a, b, c, d, e⟩
    exact ⟨a, c, b, d, e⟩
  · rintro ⟨a, b, c, d, e⟩
    exact ⟨a, c, b, d, e⟩

theorem tracks_equalityWith (xe ye : U) : Tracks (equalityPrerequisitesWith t xe ye)
    (reflexive t .x ++ reflexive t .y ++ [.expect (t.ne · .x .y), .expect (t.against · .x xe), .expect (t.against · .y ye)]) true := by
  have : Tracks (equalityPrerequisitesWith t xe ye) ((reflexive t .x ++ reflexive t .y ++ [.expect (t.ne · .x .y)]) ++ ([.expect (t.against · .x xe)] ++ ([.expect (t.against · .y ye)] ++ []))) true :=
    tracks_equality.bind ((tracks_test _).bind ((tracks_test _).bind (tracks_pure _)))
  exact this

/-- The steps for `operator<=>`. -/
def threewaySteps (t : Ops W U) (s : (W → Var → Var → Ordering) → List (Step W)) : List (Step W) :=
  match t.threeway with
  | none => []
  | some c => s c

theorem tracks_threeway {f : (W → Var → Var → Ordering) → M W Bool} {s : (W → Var → Var → Ordering) → List (Step W)} (h : ∀ c, Tracks (f c) (s c) true) :
    Tracks (threewayCheck t f) (threewaySteps t s) true := by
  unfold threewayCheck threewaySteps
  cases t.threeway with
  | none => exact tracks_pure _
  | some c => exact h c

theorem tracks_orderingOperators : Tracks (orderingOperators t) (reflexiveOrder t .x ++ reflexiveOrder t .y) true := by
  refine Tracks.congr ((tracks_consistency _).bind ((tracks_consistency _).bind ((tracks_consistency _).bind ((tracks_consistency _).bind
    ((tracks_threeway fun c => tracks_consistency _).bind (tracks_pure _)))))) (fun w => ?_) (fun w => ?_)
  · unfold reflexiveOrder threewaySteps
    cases t.threeway with
    | none =>
      simp only [Meets, List.cons_append, List.nil_append, List.append_nil, and_true]
      constructor
      · rintro ⟨a1, a2, b1, b2, c1, c2, d1, d2⟩; exact ⟨a1, b1, c1, d1, a2, b2, c2, d2⟩
      · rintro ⟨a1, b1, c1, d1, a2, b2, c2, d2⟩; exact ⟨a1, a2, b1, b2, c1, c2, d1, d2⟩
    | some f =>
      simp only [Meets, List.cons_append, List.nil_append, List.append_nil, and_true]
      constructor
      · rintro ⟨a1, a2, b1, b2, c1, c2, d1, d2, e1, e2⟩; exact ⟨a1, b1, c1, d1, e1, a2, b2, c2, d2, e2⟩
      · rintro ⟨a1, b1, c1, d1, e1, a2, b2, c2, d2, e2⟩; exact ⟨a1, a2, b1, b2, c1, c2, d1, d2, e1, e2⟩
  · unfold reflexiveOrder threewaySteps
    cases t.threeway <;> rfl

theorem tracks_comp (a b : Var) : Tracks (comp t a b) [.expect (less t · a b)] true := by
  refine Tracks.congr ((tracks_test _).bind ((tracks_test _).bind ((tracks_test _).bind ((tracks_threeway fun c => tracks_test _).bind (tracks_pure _))))) (fun w => ?_) (fun w => ?_)
  · unfold less threewaySteps
    cases t.threeway with
    | none => simp [Meets, and_assoc]
    | some c => simp [Meets, and_assoc]
  · unfold threewaySteps
    cases t.threeway <;> rfl

theorem tracks_orderingConsistency : Tracks (orderingConsistency t)
    (reflexiveOrder t .x ++ reflexiveOrder t .y ++ [.expect fun w => if t.lt w .x .y then less t w .x .y else less t w .y .x]) true := by
  have key : Tracks (fun w => if t.lt w .x .y then comp t .x .y w else comp t .y .x w) [.expect fun w => if t.lt w .x .y then less t w .x .y else less t w .y .x] true := by
    intro w
    cases h : t.lt w .x .y with
    | true =>
      have := tracks_comp (t := t) .x .y w
      simpa only [Passes, Meets, exec, h, if_true] using this
    | false =>
      have := tracks_comp (t := t) .y .x w
      simpa only [Passes, Meets, exec, h, Bool.false_eq_true, if_false] using this
  exact tracks_orderingOperators.bind key

theorem exec_expect (b : W → Bool) (s : List (Step W)) (w : W) : exec (.expect b :: s) w = exec s w := rfl

/-- Nothing is done in this part. -/
theorem exec_reflexiveOrder (a : Var) (w : W) : exec (reflexiveOrder t a) w = w := by
  unfold reflexiveOrder
  cases t.threeway <;> rfl

theorem tracks_prerequisites {e : M W Bool} {s : List (Step W)} (h : Tracks e s true) (order : Option Ordering) : Tracks (prerequisites t e order) (s ++ ordered t order) true := by
  cases order with
  | none => simpa [ordered, prerequisites] using h
  | some o =>
    have key : Tracks (prerequisites t e (some o)) (s ++ ([.expect fun _ => o != .eq] ++ ((reflexiveOrder t .x ++ reflexiveOrder t .y ++
        [.expect fun w => if t.lt w .x .y then less t w .x .y else less t w .y .x]) ++ [.expect fun w => if o == .lt then t.lt w .x .y else t.gt w .x .y]))) true :=
      h.bind ((tracks_test _).bind (tracks_orderingConsistency.bind (tracks_test _)))
    refine key.congr (fun w => ?_) (fun w => ?_)
    · rw [meets_append s, meets_append s]
      refine and_congr_right fun _ => ?_
      cases o with
      | lt =>
        simp only [ordered, meets_append, exec_append, exec_reflexiveOrder, Meets, exec]
        constructor
        · rintro ⟨_, ⟨⟨a, b⟩, c, _⟩, d, _⟩
          have d : t.lt (exec s w) .x .y = true := d
          rw [if_pos d] at c
          exact ⟨⟨a, b⟩, d, c, trivial⟩
        · rintro ⟨⟨a, b⟩, d, c, _⟩
          exact ⟨⟨rfl, trivial⟩, ⟨⟨a, b⟩, by rw [if_pos d]; exact c, trivial⟩, d, trivial⟩
      | eq => simp [ordered, Meets, exec]
      | gt =>
        simp only [ordered, meets_append, exec_append, exec_reflexiveOrder, Meets, exec]
        constructor
        · rintro ⟨_, ⟨⟨a, b⟩, c, _⟩, d, _⟩
          exact ⟨⟨a, b⟩, d, c, trivial⟩
        · rintro ⟨⟨a, b⟩, d, c, _⟩
          exact ⟨⟨rfl, trivial⟩, ⟨⟨a, b⟩, c, trivial⟩, d, trivial⟩
    · cases o <;> simp [ordered, exec_append, exec_reflexiveOrder, exec]

theorem tracks_movedFrom (a : Var) (p : Option U) : Tracks (movedFrom t a p) (moved t a p) () := by
  cases p with
  | none => exact tracks_pure _
  | some p => exact (tracks_test _).bind (tracks_pure _)

theorem tracks_moveConstruction (a : Var) (e : W → Var → Bool) (p : Option U) : Tracks (checkMoveConstruction t a e p)
    ([.do' (t.moveConstruct a .m)] ++ ([.expect (e · .m)] ++ (moved t a p ++ ([.do' (t.moveConstruct .m .opt)] ++ ([.do' (t.destroy .m)] ++ []))))) true :=
  (tracks_act _).bind ((tracks_test _).bind ((tracks_movedFrom _ _).bind ((tracks_act _).bind ((tracks_act _).bind (tracks_pure _)))))

theorem tracks_moveAssign (a b : Var) (e : W → Var → Bool) (p : Option U) : Tracks (checkMoveAssign t a b e p) ([.do' (t.moveAssign b a)] ++ ([.expect (e · a)] ++ moved t b p)) () :=
  (tracks_act _).bind ((tracks_test _).bind (tracks_movedFrom _ _))

theorem tracks_swap (a b : Var) (ea eb : W → Var → Bool) : Tracks (checkSwap t a b ea eb)
    ([.do' (t.swap a b)] ++ ([.expect (ea · b)] ++ ([.expect (eb · a)] ++ ([.do' (t.swap b b)] ++ [.expect (ea · b)])))) true :=
  (tracks_act _).bind ((tracks_test _).bind ((tracks_test _).bind ((tracks_act _).bind (tracks_test _))))

theorem tracks_copyAssign (a b : Var) : Tracks (checkCopyAssign t a b)
    ([.do' (t.copyAssign b a)] ++ ([.expect (t.eq · a b)] ++ ([.do' (t.copyAssign a a)] ++ [.expect (t.eq · a b)]))) true :=
  (tracks_act _).bind ((tracks_test _).bind ((tracks_act _).bind (tracks_test _)))

theorem tracks_mutation (p : Option (Var → W → W)) : Tracks (checkMutation t p true) (mutation t p) () := by
  cases p with
  | none => exact tracks_pure _
  | some f =>
    exact (tracks_act _).bind ((tracks_act _).bind ((tracks_test _).bind ((tracks_act _).bind ((tracks_test _).bind ((tracks_act _).bind ((tracks_test _).bind (tracks_act _)))))))

theorem tracks_moved (p : Option U) : Tracks (checkMoved t p true)
    (([.do' (t.moveConstruct .z .m)] ++ ([.expect (t.eq · .m .y)] ++ (moved t .z p ++ ([.do' (t.moveConstruct .m .opt)] ++ ([.do' (t.destroy .m)] ++ []))))) ++ [.do' (t.destroy .opt)]) () :=
  (tracks_moveConstruction _ _ _).bind (tracks_act _)

theorem tracks_serialization : Tracks (checkSerialization t) (serialization t t.stream) () := by
  unfold checkSerialization
  cases t.stream with
  | none => exact tracks_pure _
  | some f => exact (tracks_act _).bind ((tracks_act _).bind ((tracks_test _).bind (tracks_act _)))

theorem tracks_serializationFrom (ye : U) : Tracks (checkSerializationFrom t ye) (serializationFrom t ye t.streamFrom) () := by
  unfold checkSerializationFrom
  cases t.streamFrom with
  | none => exact tracks_pure _
  | some f => exact (tracks_act _).bind ((tracks_test _).bind (tracks_pure _))

theorem tracks_regular (order : Option Ordering) (mc ma : Option U) (mutator : Option (Var → W → W)) :
    Tracks (regular t order mc ma mutator) (regularExperiment t order mc ma mutator ++ [.do' (t.destroy .w), .do' (t.destroy .z)]) () := by
  have key : Tracks (regular t order mc ma mutator) _ () := (tracks_prerequisites (t := t) tracks_equality order).bind ((tracks_act _).bind ((tracks_test _).bind
    ((tracks_copyAssign _ _).bind ((tracks_moved _).bind ((tracks_act _).bind ((tracks_act _).bind
    ((tracks_moveAssign _ _ _ _).bind ((tracks_act _).bind ((tracks_act _).bind
    ((tracks_act _).bind ((tracks_swap _ _ _ _).bind ((tracks_act _).bind
    ((tracks_act _).bind ((tracks_mutation _).bind (tracks_serialization.bind ((tracks_act _).bind
    (tracks_act _)))))))))))))))))
  have e : ∀ {s s' : List (Step W)} {m : M W Unit}, s = s' → Tracks m s () → Tracks m s' () := fun h h' => h ▸ h'
  refine e ?_ key
  simp only [regularExperiment, List.append_assoc, List.cons_append, List.nil_append]

theorem tracks_moveOnly (xe ye : U) (order : Option Ordering) (mc ma : Option U) :
    Tracks (moveOnly t xe ye order mc ma) (moveOnlyExperiment t xe ye order mc ma ++ [.do' (t.destroy .opt)]) () := by
  have hs : Tracks (checkSwapAndAssign t xe ye ma) _ () := (tracks_swap _ _ _ _).bind (tracks_moveAssign (t := t) .y .opt (fun w a => t.against w a ye) ma)
  have key : Tracks (moveOnly t xe ye order mc ma) _ () := (tracks_prerequisites (t := t) (tracks_equalityWith _ _) order).bind ((tracks_moveConstruction _ _ _).bind (hs.bind
    ((tracks_serializationFrom _).bind (tracks_act _))))
  have e : ∀ {s s' : List (Step W)} {m : M W Unit}, s = s' → Tracks m s () → Tracks m s' () := fun h h' => h ▸ h'
  refine e ?_ key
  simp only [moveOnlyExperiment, List.append_assoc, List.cons_append, List.nil_append]

/-- What is done at the end is of no importance. -/
theorem meets_acts (s : List (Step W)) (fs : List (W → W)) (w : W) : Meets (s ++ fs.map .do') w ↔ Meets s w := by
  rw [meets_append]
  refine and_iff_left ?_
  generalize exec s w = v
  induction fs generalizing v with
  | nil => trivial
  | cons f fs ih => exact ih (f v)


theorem passes_regular (order : Option Ordering) (mc ma : Option U) (mutator : Option (Var → W → W)) (w : W) :
    Passes (regular t order mc ma mutator) w ↔ Meets (regularExperiment t order mc ma mutator) w := by
  have e : [Step.do' (t.destroy .w), .do' (t.destroy .z)] = [t.destroy .w, t.destroy .z].map .do' := rfl
  rw [(tracks_regular order mc ma mutator w).1, e, meets_acts]

theorem passes_regularWith (xe ye : U) (order : Option Ordering) (mc ma : Option U) (mutator : Option (Var → W → W)) (w : W) :
    Passes (regularWith t xe ye order mc ma mutator) w ↔ t.against w .x xe = true ∧ t.against w .y ye = true ∧ Meets (regularExperiment t order mc ma mutator) w := by
  have key : Tracks (regularWith t xe ye order mc ma mutator) _ () := (tracks_test _).bind ((tracks_test _).bind (tracks_regular order mc ma mutator))
  have e : [Step.do' (t.destroy .w), .do' (t.destroy .z)] = [t.destroy .w, t.destroy .z].map .do' := rfl
  rw [(key w).1, e, meets_append, meets_append, meets_acts]
  simp only [Meets, exec, and_true]

theorem passes_moveOnly (xe ye : U) (order : Option Ordering) (mc ma : Option U) (w : W) :
    Passes (moveOnly t xe ye order mc ma) w ↔ Meets (moveOnlyExperiment t xe ye order mc ma) w := by
  have e : [Step.do' (t.destroy .opt)] = [t.destroy .opt].map .do' := rfl
  rw [(tracks_moveOnly xe ye order mc ma w).1, e, meets_acts]

/-! ## Well behaved types -/

variable {V : Type} {val : W → Var → V}

theorem meets_ordered {lt : V → V → Prop} (ht : WellOrdered t val lt) {order : Option Ordering} {w : W} (h : Claimed lt (val w .x) (val w .y) order) : Meets (ordered t order) w := by
  have hr : ∀ a, Meets (reflexiveOrder t a) w := by
    intro a
    have h1 : t.lt w a a = false := by
      rw [Bool.eq_false_iff]; intro e; exact ht.irrefl _ ((ht.less _ _ _).1 e)
    have h2 : t.gt w a a = false := by
      rw [Bool.eq_false_iff]; intro e; exact ht.irrefl _ ((ht.greater _ _ _).1 e)
    have h3 : t.le w a a = true := (ht.lessEqual _ _ _).2 (.inr rfl)
    have h4 : t.ge w a a = true := (ht.greaterEqual _ _ _).2 (.inr rfl)
    unfold reflexiveOrder
    cases e : t.threeway with
    | none => simp [Meets, h1, h2, h3, h4]
    | some c => simp [Meets, h1, h2, h3, h4, ht.threeway_eq c e]
  have hl : ∀ a b, lt (val w a) (val w b) → less t w a b = true := by
    intro a b h
    have h2 := (ht.greater w b a).2 h
    have h3 := (ht.lessEqual w a b).2 (.inl h)
    have h4 := (ht.greaterEqual w b a).2 (.inl h)
    unfold less
    cases e : t.threeway with
    | none => simp [h2, h3, h4]
    | some c => simp [h2, h3, h4, ht.threeway_lt c e w a b h]
  cases order with
  | none => trivial
  | some o =>
    cases o with
    | eq => exact nomatch h
    | lt =>
      refine (meets_append _ _ _).2 ⟨(meets_append _ _ _).2 ⟨hr _, ?_⟩, ?_⟩
      · rw [exec_reflexiveOrder]; exact hr _
      · rw [exec_append, exec_reflexiveOrder, exec_reflexiveOrder]
        exact ⟨(ht.less _ _ _).2 h, hl _ _ h, trivial⟩
    | gt =>
      refine (meets_append _ _ _).2 ⟨(meets_append _ _ _).2 ⟨hr _, ?_⟩, ?_⟩
      · rw [exec_reflexiveOrder]; exact hr _
      · rw [exec_append, exec_reflexiveOrder, exec_reflexiveOrder]
        refine ⟨(ht.greater _ _ _).2 h, ?_, trivial⟩
        show (if t.lt w .x .y then less t w .x .y else less t w .y .x) = true
        rw [if_neg]
        · exact hl _ _ h
        · intro e
          exact ht.irrefl _ (ht.trans _ _ _ ((ht.less _ _ _).1 e) h)

theorem meets_ordered_none (w : W) : Meets (ordered t none) w := trivial

theorem meets_reflexive (ht : Truthful t val) (a : Var) (w : W) : Meets (reflexive t a) w := by
  have : t.ne w a a = false := by
    rw [Bool.eq_false_iff]; intro e; exact (ht.ne _ _ _).1 e rfl
  simp [reflexive, Meets, (ht.eq w a a).2 rfl, this]

theorem exec_ordered (order : Option Ordering) (w : W) : exec (ordered t order) w = w := by
  cases order with
  | none => rfl
  | some o => cases o <;> simp [ordered, exec_append, exec_reflexiveOrder, exec]

theorem exec_moved (a : Var) (p : Option U) (w : W) : exec (moved t a p) w = w := by
  cases p <;> rfl

theorem exec_reflexive (a : Var) (w : W) : exec (reflexive t a) w = w := rfl

theorem copyConstruct_val (h : WellBehaved t val) {a b : Var} (hab : a ≠ b) (w : W) (c : Var) : val (t.copyConstruct a b w) c = if c = b then val w a else val w c := by
  split
  · next e => rw [e, h.copyConstruct _ _ _ hab]
  · next e => exact h.copyConstruct_other _ _ _ _ e

theorem copyAssign_val (h : WellBehaved t val) (a b : Var) (w : W) (c : Var) : val (t.copyAssign a b w) c = if c = b then val w a else val w c := by
  split
  · next e => rw [e, h.copyAssign]
  · next e => exact h.copyAssign_other _ _ _ _ e

theorem swap_val (h : WellBehaved t val) (a b : Var) (w : W) (c : Var) : val (t.swap a b w) c = if c = a then val w b else if c = b then val w a else val w c := by
  split
  · next e => rw [e, h.swap_left]
  · next e =>
    split
    · next e' => rw [e', h.swap_right]
    · next e' => exact h.swap_other _ _ _ _ e e'

theorem meets_regular (h : WellBehaved t val) {order : Option Ordering} {mc ma : Option U} {mutator : Option (Var → W → W)} {w : W} (hxy : val w .x ≠ val w .y)
    (ho : Meets (ordered t order) w)
    (hmc : ∀ p, mc = some p → ∀ v a b, a ≠ b → val v a = val w .y → t.against (t.moveConstruct a b v) a p = true)
    (hma : ∀ p, ma = some p → ∀ v a b, a ≠ b → val v a = val w .y → t.against (t.moveAssign a b v) a p = true)
    (hmut : ∀ f, mutator = some f → Mutates val (val w .y) f) : Meets (regularExperiment t order mc ma mutator) w := by
  have hmoved : ∀ (a : Var) (p : Option U) (v : W), (∀ q, p = some q → t.against v a q = true) → Meets (moved t a p) v := by
    intro a p v hp
    cases p with
    | none => trivial
    | some q => exact ⟨hp q rfl, trivial⟩
  have hmutation : ∀ v, val v .y = val w .y → Meets (mutation t mutator) v ∧ val (exec (mutation t mutator) v) .y = val w .y := by
    intro v hv
    cases mutator with
    | none => exact ⟨trivial, hv⟩
    | some f =>
      have hf := hmut f rfl
      have c1 := h.copyConstruct v .y .v (by decide)
      have c2 := h.copyConstruct_other v .y .v .y (by decide)
      refine ⟨⟨(h.ne _ _ _).2 ?_, (h.eq _ _ _).2 ?_, (h.ne _ _ _).2 ?_, trivial⟩, ?_⟩
      · rw [hf.other _ .v .y (by decide), c2, hv]
        exact hf.changes _ _ (by rw [c1, hv])
      · rw [h.copyAssign, h.copyAssign_other _ _ _ _ (by decide)]
      · rw [hf.other _ .v .y (by decide), h.copyAssign_other _ _ _ .y (by decide), hf.other _ .v .y (by decide), c2, hv]
        exact hf.changes _ _ (by rw [h.copyAssign, hf.other _ _ _ (by decide), c2, hv])
      · show val (t.destroy .v (f .v (t.copyAssign .y .v (f .v (t.copyConstruct .y .v v))))) .y = _
        rw [h.destroy_other _ _ _ (by decide), hf.other _ _ _ (by decide), h.copyAssign_other _ _ _ _ (by decide), hf.other _ _ _ (by decide), c2, hv]
  have hser : ∀ v, Meets (serialization t t.stream) v := by
    intro v
    cases e : t.stream with
    | none => trivial
    | some f =>
      refine ⟨(h.eq _ _ _).2 ?_, trivial⟩
      rw [h.stream f e _ _ _ (by decide), h.stream_other f e _ _ _ _ (by decide)]
  unfold regularExperiment
  simp only [meets_append, exec_ordered, exec_moved, exec_reflexive, Meets, exec, and_true, List.append_assoc, h.eq, h.ne]
  refine ⟨meets_reflexive h.toTruthful _ _, meets_reflexive h.toTruthful _ _, hxy, ho, ?_, ?_, ?_, ?_, hmoved _ _ _ fun p hp => hmc p hp _ _ _ (by decide) ?_, trivial, ?_,
    hmoved _ _ _ fun p hp => hma p hp _ _ _ (by decide) ?_, trivial, ⟨?_, ?_⟩, ?_, (hmutation _ ?_).1, hser _⟩ <;>
  simp [h.copyConstruct, h.copyConstruct_other, h.copyAssign, h.copyAssign_other, h.moveConstruct, h.moveConstruct_other, h.moveAssign, h.moveAssign_other, h.swap_left, h.swap_right,
    h.swap_other, h.destroy_other]

theorem meets_moveOnly (h : Moves t val) {xe ye : U} {order : Option Ordering} {mc ma : Option U} {w : W} (hxy : val w .x ≠ val w .y)
    (hx : ∀ v a, t.against v a xe = true ↔ val v a = val w .x) (hy : ∀ v a, t.against v a ye = true ↔ val v a = val w .y)
    (ho : Meets (ordered t order) w)
    (hmc : ∀ p, mc = some p → ∀ v a b, a ≠ b → val v a = val w .x → t.against (t.moveConstruct a b v) a p = true)
    (hma : ∀ p, ma = some p → ∀ v a b, a ≠ b → val v a = val w .y → t.against (t.moveAssign a b v) a p = true)
    (hs : ∀ f, t.streamFrom = some f → ∀ v a, val (f ye a v) a = val w .y) : Meets (moveOnlyExperiment t xe ye order mc ma) w := by
  have hmoved : ∀ (a : Var) (p : Option U) (v : W), (∀ q, p = some q → t.against v a q = true) → Meets (moved t a p) v := by
    intro a p v hp
    cases p with
    | none => trivial
    | some q => exact ⟨hp q rfl, trivial⟩
  have hser : ∀ v, Meets (serializationFrom t ye t.streamFrom) v := by
    intro v
    cases e : t.streamFrom with
    | none => trivial
    | some f => exact ⟨(hy _ _).2 (hs f e _ _), trivial⟩
  unfold moveOnlyExperiment
  simp only [meets_append, exec_ordered, exec_moved, exec_reflexive, Meets, exec, and_true, List.append_assoc, h.ne, hx, hy]
  refine ⟨meets_reflexive h.toTruthful _ _, meets_reflexive h.toTruthful _ _, hxy, ho, ?_, hmoved _ _ _ fun p hp => hmc p hp _ _ _ (by decide) ?_, trivial, ⟨?_, ?_⟩, ?_,
    ?_, hmoved _ _ _ fun p hp => hma p hp _ _ _ (by decide) ?_, hser _⟩ <;>
  simp [h.moveConstruct, h.moveConstruct_other, h.moveAssign, h.swap_left, h.swap_right,
    h.swap_other, h.destroy_other]

/-! ## Defects -/

theorem not_meets_defective (h : Truthful t val) {order : Option Ordering} {mc ma : Option U} {mutator : Option (Var → W → W)} (hd : Defective t val mutator) (w : W) :
    ¬ Meets (regularExperiment t order mc ma mutator) w := by
  unfold regularExperiment
  simp only [meets_append, exec_ordered, exec_moved, exec_reflexive, Meets, exec, and_true, List.append_assoc, h.eq, h.ne]
  rintro ⟨-, -, -, -, hcopy, hassign, hself, hmove, -, -, hmoveAssign, -, -, ⟨hs1, hs2⟩, hss, hmut, hser⟩
  cases hd with
  | copy d => exact d _ _ _ (by decide) hcopy
  | assign d => exact d _ _ _ (by decide) hassign
  | selfAssign d => exact d _ _ _ (by decide) hassign hself
  | moveConstruct d => exact d _ _ _ _ (by decide) (by decide) hself hmove
  | moveAssign c d => exact d _ _ _ _ (by decide) (by decide) (by simp [c.copy, c.other]) hmoveAssign
  | swap c d =>
    have key := fun e1 e2 => (d _ .sx .sy .x .y (by decide) (by decide) (by decide) (by decide) (by decide) e1 e2).elim (fun d' => d' hs1) (fun d' => d' hs2)
    exact key (by simp [c.copy, c.other]) (by simp [c.copy, c.other])
  | selfSwap d => exact d _ _ _ (by decide) hs1 hss
  | shallowCopy d =>
    simp only [mutation, Meets, h.ne] at hmut
    exact hmut.1 (d _ _ _)
  | shallowAssign d =>
    simp only [mutation, Meets, h.ne] at hmut
    exact hmut.2.2.1 (d _ _ _)
  | stream e d =>
    rw [e] at hser
    simp only [serialization, Meets, h.eq] at hser
    exact d _ _ _ (by decide) hser.1

theorem not_meets_moved {order : Option Ordering} {mc ma : Option U} {mutator : Option (Var → W → W)} {p : U}
    (hp : (mc = some p ∧ ∀ w a b, a ≠ b → t.against (t.moveConstruct a b w) a p = false) ∨ (ma = some p ∧ ∀ w a b, a ≠ b → t.against (t.moveAssign a b w) a p = false)) (w : W) :
    ¬ Meets (regularExperiment t order mc ma mutator) w := by
  unfold regularExperiment
  simp only [meets_append, exec_ordered, exec_moved, exec_reflexive, Meets, exec, and_true, List.append_assoc]
  rintro ⟨-, -, -, -, -, -, -, -, h1, -, -, h2, -⟩
  rcases hp with ⟨rfl, hp⟩ | ⟨rfl, hp⟩
  · exact Bool.false_ne_true ((hp _ _ _ (by decide)).symm.trans h1.1)
  · exact Bool.false_ne_true ((hp _ _ _ (by decide)).symm.trans h2.1)

/-! ## What is not detected -/

theorem meets_of_eq (he : ∀ w a b, t.eq w a b = true) (hn : ∀ w a, t.ne w a a = false) {w : W} (hxy : t.ne w .x .y = true) : Meets (regularExperiment t none none none none) w := by
  have hser : ∀ v, Meets (serialization t t.stream) v := by
    intro v
    cases e : t.stream with
    | none => trivial
    | some f => exact ⟨he _ _ _, trivial⟩
  have hr : ∀ a v, Meets (reflexive t a) v := fun a v => ⟨he _ _ _, by simp [hn], trivial⟩
  unfold regularExperiment
  simp only [meets_append, exec_reflexive, Meets, exec, and_true, List.append_assoc, he, hxy, ordered, moved, mutation, hser, hr]

/-- The type with other operators for the order. -/
def reorder (t : Ops W U) (lt le ge : W → Var → Var → Bool) : Ops W U := { t with lt := lt, le := le, ge := ge }

theorem wellBehaved_reorder (h : WellBehaved t val) (lt le ge : W → Var → Var → Bool) : WellBehaved (reorder t lt le ge) val :=
  { eq := h.eq, ne := h.ne, moveConstruct := h.moveConstruct, moveConstruct_other := h.moveConstruct_other, moveAssign := h.moveAssign, moveAssign_other := h.moveAssign_other
    swap_left := h.swap_left, swap_right := h.swap_right, swap_other := h.swap_other, destroy_other := h.destroy_other, copyConstruct := h.copyConstruct
    copyConstruct_other := h.copyConstruct_other, copyAssign := h.copyAssign, copyAssign_other := h.copyAssign_other, stream := h.stream, stream_other := h.stream_other }

theorem meets_ordered_always {order : Option Ordering} {w : W} (h : Meets (ordered t order) w) : Meets (ordered (reorder t t.lt (fun _ _ _ => true) (fun _ _ _ => true)) order) w := by
  have hl : ∀ a b, less t w a b = true → less (reorder t t.lt (fun _ _ _ => true) (fun _ _ _ => true)) w a b = true := by
    intro a b h
    unfold less at h ⊢
    simp only [Bool.and_eq_true] at h
    rw [Bool.and_eq_true]
    exact ⟨by show (t.gt w b a && true && true) = true; rw [h.1.1.1]; rfl, h.2⟩
  have hr : ∀ a, Meets (reflexiveOrder t a) w → Meets (reflexiveOrder (reorder t t.lt (fun _ _ _ => true) (fun _ _ _ => true)) a) w := by
    intro a ha
    unfold reflexiveOrder at ha ⊢
    rw [meets_append] at ha ⊢
    exact ⟨⟨ha.1.1, rfl, ha.1.2.2.1, rfl, trivial⟩, ha.2⟩
  cases order with
  | none => trivial
  | some o =>
    cases o with
    | eq => exact h
    | lt =>
      simp only [ordered, meets_append, exec_append, exec_reflexiveOrder, Meets, and_true] at h ⊢
      exact ⟨⟨hr _ h.1.1, hr _ h.1.2⟩, h.2.1, hl _ _ h.2.2⟩
    | gt =>
      simp only [ordered, meets_append, exec_append, exec_reflexiveOrder, Meets, and_true] at h ⊢
      refine ⟨⟨hr _ h.1.1, hr _ h.1.2⟩, h.2.1, ?_⟩
      have h3 := h.2.2
      show (if t.lt w .x .y = true then _ else _) = true
      split at h3
      · next e => rw [if_pos e]; exact hl _ _ h3
      · next e => rw [if_neg e]; exact hl _ _ h3

theorem meets_ordered_never {lt : V → V → Prop} (ht : WellOrdered t val lt) {w : W} (h : lt (val w .y) (val w .x)) : Meets (ordered (reorder t (fun _ _ _ => false) t.le t.ge) (some .gt)) w := by
  have h' : Meets (ordered t (some .gt)) w := meets_ordered ht h
  have hn : t.lt w .x .y = false := by
    rw [Bool.eq_false_iff]; intro e; exact ht.irrefl _ (ht.trans _ _ _ ((ht.less _ _ _).1 e) h)
  have hr : ∀ a, Meets (reflexiveOrder t a) w → Meets (reflexiveOrder (reorder t (fun _ _ _ => false) t.le t.ge) a) w := by
    intro a ha
    unfold reflexiveOrder at ha ⊢
    rw [meets_append] at ha ⊢
    exact ⟨⟨rfl, ha.1.2⟩, ha.2⟩
  simp only [ordered, meets_append, exec_append, exec_reflexiveOrder, Meets, and_true] at h' ⊢
  refine ⟨⟨hr _ h'.1.1, hr _ h'.1.2⟩, h'.2.1, ?_⟩
  have h3 := h'.2.2
  rw [hn] at h3
  exact h3

end

end Verif.Semantics
