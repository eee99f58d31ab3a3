import Verif.Lemmas.Fill
import Verif.Spec.Fill

/-! # Fill-in of repeating block tridiagonal arrowhead matrices: helper theory -/

namespace Ctldl

variable {n : Nat} {A B C E : Nat → Nat → Prop}

/-- Every pattern has an elimination tree. -/
theorem exists_isTree (G : Nat → Nat → Prop) : ∃ P, IsTree G P := by
  classical
  refine ⟨fun j => if h : ∃ p, IsParent G j p then some h.choose else none, ?_⟩
  intro j p
  by_cases h : ∃ p, IsParent G j p
  · simp only [h, dite_true, Option.some.injEq]
    constructor
    · rintro rfl; exact h.choose_spec
    · intro hp; exact h.choose_spec.unique hp
  · simp only [h, dite_false, reduceCtorEq, false_iff]
    exact fun hp => h ⟨p, hp⟩

theorem Fill.anc_shift {G : Nat → Nat → Prop} {P : Nat → Option Nat} (hP : Increasing P) {s : Nat}
    (hG : ∀ a b, G a b → b < a → Anc P (s + b) (s + a)) {i j : Nat} (hf : Fill G i j) :
    Anc P (s + j) (s + i) := by
  induction hf with
  | base h hlt => exact hG _ _ h hlt
  | step _ _ hlt ih1 ih2 => exact ih2.linear hP ih1 (by omega)

/-- Patterns of the blocks stay in their blocks. -/
structure BlocksOk (n : Nat) (A B : Nat → Nat → Prop) : Prop where
  diag : ∀ i j, A i j → j < i ∧ i < n
  sub : ∀ i j, B i j → i < n ∧ j < n

/-- A forest on the nodes of one block. -/
def FrontTree (n : Nat) (P : Nat → Option Nat) : Prop := ∀ j p, P j = some p → j < p ∧ p < n

theorem FrontTree.increasing {P : Nat → Option Nat} (h : FrontTree n P) : Increasing P := fun j p hp => (h j p hp).1

/-- The matrix of two blocks: the first one is represented by a forest, the second one has the patterns `B`
and `A`. -/
def stepGraph (n : Nat) (A B : Nat → Nat → Prop) (P : Nat → Option Nat) : Nat → Nat → Prop := fun i j =>
  P j = some i ∨ (n ≤ i ∧ B (i - n) j) ∨ (n ≤ i ∧ n ≤ j ∧ A (i - n) (j - n))

theorem stepGraph_edges (hb : BlocksOk n A B) {P : Nat → Option Nat} (hP : FrontTree n P) {i j : Nat}
    (h : stepGraph n A B P i j) : j < i ∧ i < 2 * n := by
  rcases h with h | ⟨h1, h⟩ | ⟨h1, h2, h⟩
  · have := hP _ _ h; omega
  · have := hb.sub _ _ h; omega
  · have := hb.diag _ _ h; omega

/-- The forest of the second block. -/
def backOf (n : Nat) (T : Nat → Option Nat) (m : Nat) : Option Nat :=
  if m < n then (T (n + m)).map (fun p => p - n) else none

theorem stepTree_bound (hb : BlocksOk n A B) {P T : Nat → Option Nat} (hP : FrontTree n P)
    (hT : IsTree (stepGraph n A B P) T) {j p : Nat} (h : T j = some p) : j < p ∧ p < 2 * n := by
  have hf := ((hT j p).mp h).1
  exact ⟨hf.lt, hf.row_bound fun a b hab => (stepGraph_edges hb hP hab).2⟩

theorem backOf_eq_some (hb : BlocksOk n A B) {P T : Nat → Option Nat} (hP : FrontTree n P)
    (hT : IsTree (stepGraph n A B P) T) {j p : Nat} :
    backOf n T j = some p ↔ j < n ∧ T (n + j) = some (n + p) := by
  unfold backOf
  by_cases hj : j < n
  · rw [if_pos hj]
    cases hc : T (n + j) with
    | none => simp
    | some q =>
      have := stepTree_bound hb hP hT hc
      simp only [Option.map_some, Option.some.injEq, hj, true_and]
      omega
  · simp [hj]

theorem backOf_front (hb : BlocksOk n A B) {P T : Nat → Option Nat} (hP : FrontTree n P)
    (hT : IsTree (stepGraph n A B P) T) : FrontTree n (backOf n T) := by
  intro j p h
  have h1 := (backOf_eq_some hb hP hT).mp h
  have := stepTree_bound hb hP hT h1.2
  omega

theorem backOf_anc (hb : BlocksOk n A B) {P T : Nat → Option Nat} (hP : FrontTree n P)
    (hT : IsTree (stepGraph n A B P) T) {j p : Nat} (hj : j < n) :
    Anc (backOf n T) j p ↔ Anc T (n + j) (n + p) := by
  constructor
  · intro h
    clear hj
    induction h with
    | refl _ => exact .refl _
    | step h _ ih => exact .step ((backOf_eq_some hb hP hT).mp h).2 ih
  · intro h
    generalize ha : n + j = a at h
    generalize hq : n + p = q at h
    induction h generalizing j with
    | refl _ =>
      have : j = p := by omega
      subst this
      exact .refl _
    | @step a b q h hbq ih =>
      subst ha
      have h1 := stepTree_bound hb hP hT h
      have h2 : backOf n T j = some (b - n) := by
        rw [backOf_eq_some hb hP hT]
        refine ⟨hj, ?_⟩
        rw [h]
        congr 1
        omega
      exact .step h2 (ih (by omega) (by omega) hq)

/-- The forests produced by the iteration. -/
inductive RepIter (n : Nat) (A B : Nat → Nat → Prop) : Nat → (Nat → Option Nat) → Prop
  | zero : RepIter n A B 0 (fun _ => none)
  | succ {k : Nat} {P T : Nat → Option Nat} : RepIter n A B k P → IsTree (stepGraph n A B P) T →
      RepIter n A B (k + 1) (backOf n T)

theorem RepIter.front (hb : BlocksOk n A B) {k : Nat} {P : Nat → Option Nat} (h : RepIter n A B k P) :
    FrontTree n P := by
  induction h with
  | zero => intro j p h; cases h
  | succ _ hT ih => exact backOf_front hb ih hT

/-- Larger forests give larger trees. -/
theorem stepTree_mono {P P' T T' : Nat → Option Nat} (hPP : ∀ j p, P j = some p → Anc P' j p)
    (hP' : Increasing P')
    (hT : IsTree (stepGraph n A B P) T) (hT' : IsTree (stepGraph n A B P') T') {a b : Nat} (h : Anc T a b) :
    Anc T' a b := by
  refine h.mono ?_
  intro j p hp
  have hf := ((hT j p).mp hp).1
  refine hf.anc_of_edges hT'.increasing ?_
  intro x y hxy hlt
  rcases hxy with h | h | h
  · exact (hPP _ _ h).mono fun j p hp => hT'.fill_anc (.base (Or.inl hp) (hP' _ _ hp))
  · exact hT'.fill_anc (.base (Or.inr (Or.inl h)) hlt)
  · exact hT'.fill_anc (.base (Or.inr (Or.inr h)) hlt)

/-- The iteration grows. -/
theorem RepIter.mono (hb : BlocksOk n A B) {k : Nat} {P T : Nat → Option Nat} (h : RepIter n A B k P)
    (hT : IsTree (stepGraph n A B P) T) {j p : Nat} (hjp : P j = some p) : Anc (backOf n T) j p := by
  induction h generalizing T j p with
  | zero => cases hjp
  | @succ k P T0 hk hT0 ih =>
    have hfr := hk.front hb
    obtain ⟨hj, hjp⟩ := (backOf_eq_some hb hfr hT0).mp hjp
    have hfr' := backOf_front hb hfr hT0
    rw [backOf_anc hb hfr' hT hj]
    exact stepTree_mono (fun j p hp => ih hT0 hp) hfr'.increasing hT0 hT (Anc.single hjp)

/-- A fixed point of the iteration. -/
structure RepFix (n : Nat) (A B : Nat → Nat → Prop) (F T : Nat → Option Nat) : Prop where
  blocks : BlocksOk n A B
  front : FrontTree n F
  tree : IsTree (stepGraph n A B F) T
  back : backOf n T = F

namespace RepFix

variable {F T : Nat → Option Nat}

/-- Ancestors within the second block are ancestors within the first block. -/
theorem anc_back (h : RepFix n A B F T) {j k : Nat} (hj : j < n) (ha : Anc T (n + j) (n + k)) : Anc T j k := by
  rw [← backOf_anc h.blocks h.front h.tree hj, h.back] at ha
  exact ha.mono fun j p hp => h.tree.fill_anc (.base (Or.inl hp) (h.front _ _ hp).1)

/-- Edges within the first block are those of the forest. -/
theorem front_edge (h : RepFix n A B F T) {j p : Nat} (hp : T j = some p) (hpn : p < n) : F j = some p := by
  have hf := ((h.tree j p).mp hp).1
  rw [← fill_treeEdges h.front.increasing]
  clear hp
  induction hf with
  | base hG hlt =>
    rcases hG with hG | ⟨h1, -⟩ | ⟨h1, -⟩
    · exact .base hG hlt
    all_goals omega
  | step _ _ hlt ih1 ih2 => exact .step (ih1 hpn) (ih2 (by omega)) hlt

theorem diag_diag (h : RepFix n A B F T) {i j k : Nat} (h1 : Fill (stepGraph n A B F) (n + i) (n + j))
    (h2 : Fill (stepGraph n A B F) (n + k) (n + j)) (hlt : k < i) :
    Fill (stepGraph n A B F) (n + i) (n + k) := .step h1 h2 (by omega)

theorem sub_diag (h : RepFix n A B F T) {i j k : Nat} (hk : k < n)
    (h1 : Fill (stepGraph n A B F) (n + i) j)
    (h2 : Fill (stepGraph n A B F) (n + k) (n + j)) : Fill (stepGraph n A B F) (n + i) k := by
  have hlt := h2.lt
  exact h.tree.fill_up h1 (h.anc_back (by omega) (h.tree.fill_anc h2)) (by omega)

theorem sub_sub (h : RepFix n A B F T) {i j k : Nat}
    (h1 : Fill (stepGraph n A B F) (n + i) j)
    (h2 : Fill (stepGraph n A B F) (n + k) j) (hlt : k < i) :
    Fill (stepGraph n A B F) (n + i) (n + k) := .step h1 h2 (by omega)

end RepFix

/-- Successor for the outer rows: the parent, second block identified with the first; roots are fixed. -/
def outerNext (n : Nat) (T : Nat → Option Nat) (m : Nat) : Nat :=
  match T m with
  | none => m
  | some p => p % n

/-- A set of columns of the outer block closed under successors. -/
def OuterClosed (n : Nat) (T : Nat → Option Nat) (V : Nat → Prop) : Prop := ∀ m, V m → V (outerNext n T m)

namespace RepFix

variable {F T : Nat → Option Nat}

theorem outer_front (h : RepFix n A B F T) {V : Nat → Prop} (hV : OuterClosed n T V) {j k : Nat} (hk : k < n)
    (ha : Anc T j k) (hj : V j) : V k := by
  induction ha with
  | refl _ => exact hj
  | @step j p k hp hpk ih =>
    apply ih hk
    have := hpk.le h.tree.increasing
    have h1 := hV j hj
    unfold outerNext at h1
    rw [hp] at h1
    simp only [Nat.mod_eq_of_lt (show p < n by omega)] at h1
    exact h1

theorem outer_diag (h : RepFix n A B F T) {V : Nat → Prop} (hV : OuterClosed n T V) {j k : Nat} (hk : k < n)
    (hj : V j) (h2 : Fill (stepGraph n A B F) (n + k) (n + j)) : V k := by
  have hlt := h2.lt
  exact h.outer_front hV hk (h.anc_back (by omega) (h.tree.fill_anc h2)) hj

theorem outer_sub_anc (h : RepFix n A B F T) {V : Nat → Prop} (hV : OuterClosed n T V) {j k : Nat} (hk : k < n)
    (hjn : j < n) (hj : V j) (h2 : Anc T j (n + k)) : V k := by
  generalize hq : n + k = q at h2
  induction h2 with
  | refl _ => omega
  | @step j p q hp hpq ih =>
    subst hq
    have h1 := hV j hj
    unfold outerNext at h1
    rw [hp] at h1
    simp only at h1
    by_cases hpn : p < n
    · rw [Nat.mod_eq_of_lt hpn] at h1
      exact ih hpn h1 rfl
    · have hb := stepTree_bound h.blocks h.front h.tree hp
      have hmod : p % n = p - n := by
        rw [Nat.mod_eq_sub_mod (by omega), Nat.mod_eq_of_lt (by omega)]
      rw [hmod] at h1
      refine h.outer_front hV hk (h.anc_back (by omega) ?_) h1
      rw [show n + (p - n) = p by omega]
      exact hpq

theorem outer_sub (h : RepFix n A B F T) {V : Nat → Prop} (hV : OuterClosed n T V) {j k : Nat} (hk : k < n)
    (hjn : j < n) (hj : V j) (h2 : Fill (stepGraph n A B F) (n + k) j) : V k :=
  h.outer_sub_anc hV hk hjn hj (h.tree.fill_anc h2)

end RepFix

/-! ### Covering all repetitions -/

theorem block_inj {t i t' i' : Nat} (hi : i < n) (hi' : i' < n) (h : t * n + i = t' * n + i') :
    t = t' ∧ i = i' := by
  have hn : 0 < n := by omega
  have h1 : (t * n + i) / n = t := by
    rw [Nat.mul_comm, Nat.mul_add_div hn, Nat.div_eq_of_lt hi, Nat.add_zero]
  have h2 : (t' * n + i') / n = t' := by
    rw [Nat.mul_comm, Nat.mul_add_div hn, Nat.div_eq_of_lt hi', Nat.add_zero]
  have h3 : t = t' := by rw [← h1, ← h2, h]
  subst h3
  exact ⟨rfl, by omega⟩

theorem block_lt {t i N : Nat} (hi : i < n) (ht : t ≤ N) : t * n + i < (N + 1) * n := by
  have : (t + 1) * n ≤ (N + 1) * n := Nat.mul_le_mul_right n (by omega)
  rw [Nat.succ_mul] at this
  omega

theorem block_lt_block {t i t' i' : Nat} (hi : i < n) (hlt : t < t') : t * n + i < t' * n + i' := by
  have := block_lt (N := t' - 1) hi (show t ≤ t' - 1 by omega)
  rw [show t' - 1 + 1 = t' by omega] at this
  omega

/-- What the fill-in of the assembled matrix is contained in. -/
def Covered (n N : Nat) (D S : Nat → Nat → Prop) (O : Nat → Nat → Prop) (x y : Nat) : Prop :=
  (∃ t i j, t ≤ N ∧ i < n ∧ j < n ∧ x = t * n + i ∧ y = t * n + j ∧ D i j) ∨
  (∃ t i j, t < N ∧ i < n ∧ j < n ∧ x = (t + 1) * n + i ∧ y = t * n + j ∧ S i j) ∨
  (∃ t o j, t ≤ N ∧ j < n ∧ x = (N + 1) * n + o ∧ y = t * n + j ∧ O o j) ∨
  (N + 1) * n ≤ y

theorem RepFix.covered {F T : Nat → Option Nat} (h : RepFix n A B F T) {N : Nat} {O : Nat → Nat → Prop}
    (hC : ∀ o j, C o j → j < n ∧ O o j) (hO : ∀ o, OuterClosed n T (O o)) {x y : Nat}
    (hf : Fill (RepeatingAssembled n N A B C E) x y) :
    Covered n N (fun i j => Fill (stepGraph n A B F) (n + i) (n + j))
      (fun i j => Fill (stepGraph n A B F) (n + i) j) O x y := by
  induction hf with
  | base hG hlt =>
    rcases hG with ⟨t, i, j, ht, rfl, rfl, hA⟩ | ⟨t, i, j, ht, rfl, rfl, hB⟩ | ⟨t, o, j, ht, rfl, rfl, hCo⟩ |
      ⟨o, o', rfl, rfl, hE⟩
    · have hd := h.blocks.diag _ _ hA
      refine Or.inl ⟨t, i, j, ht, hd.2, by omega, rfl, rfl, .base ?_ (by omega)⟩
      refine Or.inr (Or.inr ⟨by omega, by omega, ?_⟩)
      simpa using hA
    · have hd := h.blocks.sub _ _ hB
      refine Or.inr (Or.inl ⟨t, i, j, ht, hd.1, hd.2, rfl, rfl, .base ?_ (by omega)⟩)
      refine Or.inr (Or.inl ⟨by omega, ?_⟩)
      simpa using hB
    · exact Or.inr (Or.inr (Or.inl ⟨t, o, j, ht, (hC _ _ hCo).1, rfl, rfl, (hC _ _ hCo).2⟩))
    · exact Or.inr (Or.inr (Or.inr (by omega)))
  | @step x y z _ hzy hlt ih1 ih2 =>
    have hzy := hzy.lt
    by_cases hz : (N + 1) * n ≤ z
    · exact Or.inr (Or.inr (Or.inr hz))
    rcases ih1 with ⟨t, i, j, ht, hi, hj, rfl, rfl, hD⟩ | ⟨t, i, j, ht, hi, hj, rfl, rfl, hS⟩ |
      ⟨t, o, j, ht, hj, rfl, rfl, hOo⟩ | hy
    · -- row in the same block
      rcases ih2 with ⟨t', i', j', ht', hi', hj', rfl, he, hD'⟩ | ⟨t', i', j', ht', hi', hj', rfl, he, hS'⟩ |
        ⟨t', o', j', ht', hj', rfl, he, hO'⟩ | hy'
      · obtain ⟨rfl, rfl⟩ := block_inj hj hj' he
        exact Or.inl ⟨t, i, i', ht, hi, hi', rfl, rfl, h.diag_diag hD hD' (by omega)⟩
      · obtain ⟨rfl, rfl⟩ := block_inj hj hj' he
        have := block_lt_block (i' := i') hi (show t < t + 1 by omega)
        omega
      · omega
      · have := block_lt hj ht
        omega
    · rcases ih2 with ⟨t', i', j', ht', hi', hj', rfl, he, hD'⟩ | ⟨t', i', j', ht', hi', hj', rfl, he, hS'⟩ |
        ⟨t', o', j', ht', hj', rfl, he, hO'⟩ | hy'
      · obtain ⟨rfl, rfl⟩ := block_inj hj hj' he
        exact Or.inr (Or.inl ⟨t, i, i', ht, hi, hi', rfl, rfl, h.sub_diag hi' hS hD'⟩)
      · obtain ⟨rfl, rfl⟩ := block_inj hj hj' he
        exact Or.inl ⟨t + 1, i, i', ht, hi, hi', rfl, rfl, h.sub_sub hS hS' (by omega)⟩
      · omega
      · have := block_lt hj (Nat.le_of_lt ht)
        omega
    · rcases ih2 with ⟨t', i', j', ht', hi', hj', rfl, he, hD'⟩ | ⟨t', i', j', ht', hi', hj', rfl, he, hS'⟩ |
        ⟨t', o', j', ht', hj', rfl, he, hO'⟩ | hy'
      · obtain ⟨rfl, rfl⟩ := block_inj hj hj' he
        exact Or.inr (Or.inr (Or.inl ⟨t, o, i', ht, hi', rfl, rfl, h.outer_diag (hO o) hi' hOo hD'⟩))
      · obtain ⟨rfl, rfl⟩ := block_inj hj hj' he
        exact Or.inr (Or.inr (Or.inl ⟨t + 1, o, i', ht', hi', rfl, rfl, h.outer_sub (hO o) hi' hj hOo hS'⟩))
      · omega
      · have := block_lt hj ht
        omega
    · rcases ih2 with ⟨t', i', j', ht', hi', hj', rfl, he, hD'⟩ | ⟨t', i', j', ht', hi', hj', rfl, he, hS'⟩ |
        ⟨t', o', j', ht', hj', rfl, he, hO'⟩ | hy'
      · have := block_lt hj' ht'
        omega
      · have := block_lt hj' (Nat.le_of_lt ht')
        omega
      · have := block_lt hj' ht'
        omega
      · exact absurd (by omega) hz

/-! ### Not larger than necessary -/

theorem assembled_diag {N t i j : Nat} (ht : t ≤ N) (h : A i j) :
    RepeatingAssembled n N A B C E (t * n + i) (t * n + j) := Or.inl ⟨t, i, j, ht, rfl, rfl, h⟩

theorem assembled_sub {N t i j : Nat} (ht : t < N) (h : B i j) :
    RepeatingAssembled n N A B C E ((t + 1) * n + i) (t * n + j) := Or.inr (Or.inl ⟨t, i, j, ht, rfl, rfl, h⟩)

/-- Ancestors of a tree of two blocks are ancestors in the tree of the assembled matrix if the forest of the
first block is. -/
theorem stepTree_real (hb : BlocksOk n A B) {N t : Nat} {P T Q : Nat → Option Nat}
    (hT : IsTree (stepGraph n A B P) T) (hQ : IsTree (RepeatingAssembled n N A B C E) Q) (ht : t < N)
    (hP : ∀ j p, P j = some p → Anc Q (t * n + j) (t * n + p)) {a b : Nat} (h : Anc T a b) :
    Anc Q (t * n + a) (t * n + b) := by
  induction h with
  | refl _ => exact .refl _
  | @step j p k hp _ ih =>
    refine Anc.trans ?_ ih
    refine Fill.anc_shift hQ.increasing ?_ ((hT j p).mp hp).1
    intro x y hxy hlt
    rcases hxy with h | ⟨h1, h⟩ | ⟨h1, h2, h⟩
    · exact hP _ _ h
    · have hs := hb.sub _ _ h
      have hf := Fill.base (assembled_sub (n := n) (A := A) (C := C) (E := E) ht h)
        (block_lt_block hs.2 (by omega))
      rw [Nat.succ_mul, show t * n + n + (x - n) = t * n + x by omega] at hf
      exact hQ.fill_anc hf
    · have hs := hb.diag _ _ h
      have hf := Fill.base (assembled_diag (n := n) (B := B) (C := C) (E := E) (show t + 1 ≤ N by omega) h)
        (by omega)
      rw [Nat.succ_mul, show t * n + n + (x - n) = t * n + x by omega,
        show t * n + n + (y - n) = t * n + y by omega] at hf
      exact hQ.fill_anc hf

theorem RepIter.real (hb : BlocksOk n A B) {N k : Nat} {P Q : Nat → Option Nat} (h : RepIter n A B k P)
    (hQ : IsTree (RepeatingAssembled n N A B C E) Q) {t j p : Nat} (hk : k ≤ t) (ht : t ≤ N)
    (hjp : P j = some p) : Anc Q (t * n + j) (t * n + p) := by
  induction h generalizing t j p with
  | zero => cases hjp
  | @succ k P T hk' hT ih =>
    obtain ⟨hj, hjp⟩ := (backOf_eq_some hb (hk'.front hb) hT).mp hjp
    have := stepTree_real hb hT hQ (t := t - 1) (by omega) (fun j p hp => ih (by omega) (by omega) hp)
      (Anc.single hjp)
    have e : (t - 1) * n + n = t * n := by
      rw [← Nat.succ_mul]
      congr 1
      omega
    rwa [← Nat.add_assoc, ← Nat.add_assoc, e] at this

namespace RepFix

variable {F T : Nat → Option Nat}

theorem real_anc (h : RepFix n A B F T) {k N t : Nat} (hk : RepIter n A B k F) {Q : Nat → Option Nat}
    (hQ : IsTree (RepeatingAssembled n N A B C E) Q) (hkt : k ≤ t) (ht : t < N) {a b : Nat} (hab : Anc T a b) :
    Anc Q (t * n + a) (t * n + b) :=
  stepTree_real h.blocks h.tree hQ ht (fun _ _ hp => hk.real h.blocks hQ hkt (Nat.le_of_lt ht) hp) hab

/-- Entries of the subdiagonal pattern are real fill-in. -/
theorem real_sub (h : RepFix n A B F T) {k N t : Nat} (hk : RepIter n A B k F) (hkt : k ≤ t) (ht : t < N)
    {i j : Nat} (hj : j < n) (hf : Fill (stepGraph n A B F) (n + i) j) :
    Fill (RepeatingAssembled n N A B C E) ((t + 1) * n + i) (t * n + j) := by
  obtain ⟨Q, hQ⟩ := exists_isTree (RepeatingAssembled n N A B C E)
  obtain ⟨-, j0, -, hG, ha⟩ := h.tree.fill_row.mp hf
  have hle := ha.le h.tree.increasing
  rcases hG with hG | ⟨h1, hG⟩ | ⟨h1, h2, hG⟩
  · have := h.front _ _ hG; omega
  · rw [Nat.add_sub_cancel_left] at hG
    refine hQ.fill_up (.base (assembled_sub ht hG) ?_) (h.real_anc hk hQ hkt ht ha) ?_
    · exact block_lt_block (by omega) (by omega)
    · exact block_lt_block hj (by omega)
  · omega

/-- Entries of the diagonal pattern are real fill-in. -/
theorem real_diag (h : RepFix n A B F T) {k N t : Nat} (hk : RepIter n A B k F) (hkt : k ≤ t) (ht : t < N)
    {i j : Nat} (hf : Fill (stepGraph n A B F) (n + i) (n + j)) :
    Fill (RepeatingAssembled n N A B C E) ((t + 1) * n + i) ((t + 1) * n + j) := by
  obtain ⟨Q, hQ⟩ := exists_isTree (RepeatingAssembled n N A B C E)
  have hlt := hf.lt
  obtain ⟨-, j0, -, hG, ha⟩ := h.tree.fill_row.mp hf
  have hr := h.real_anc hk hQ hkt ht ha
  rw [← Nat.add_assoc, ← Nat.succ_mul] at hr
  rcases hG with hG | ⟨h1, hG⟩ | ⟨h1, h2, hG⟩
  · have := h.front _ _ hG; omega
  · rw [Nat.add_sub_cancel_left] at hG
    have hs := h.blocks.sub _ _ hG
    exact hQ.fill_up (.base (assembled_sub ht hG) (block_lt_block hs.2 (by omega))) hr (by omega)
  · rw [Nat.add_sub_cancel_left] at hG
    have hs := h.blocks.diag _ _ hG
    have e : t * n + j0 = (t + 1) * n + (j0 - n) := by rw [Nat.succ_mul]; omega
    rw [e] at hr
    exact hQ.fill_up (.base (assembled_diag (by omega) hG) (by omega)) hr (by omega)

/-- Columns reached in the outer rows are real fill-in, possibly a number of blocks later. -/
theorem real_outer (h : RepFix n A B F T) {k : Nat} (hk : RepIter n A B k F) {o j : Nat}
    (hr : ∃ j0, C o j0 ∧ j0 < n ∧ Relation.ReflTransGen (fun a b => outerNext n T a = b) j0 j) :
    j < n ∧ ∃ w, ∀ E N t, k + w ≤ t → t ≤ N →
      Fill (RepeatingAssembled n N A B C E) ((N + 1) * n + o) (t * n + j) := by
  obtain ⟨j0, hC, hj0, hr⟩ := hr
  induction hr with
  | refl =>
    refine ⟨hj0, 0, fun E N t _ ht => .base (Or.inr (Or.inr (Or.inl ⟨t, o, j0, ht, rfl, rfl, hC⟩))) ?_⟩
    have := block_lt hj0 ht
    omega
  | @tail a b _ hab ih =>
    obtain ⟨ha, w, ih⟩ := ih
    unfold outerNext at hab
    cases hp : T a with
    | none => rw [hp] at hab; simp only at hab; subst hab; exact ⟨ha, w, ih⟩
    | some p =>
      rw [hp] at hab
      simp only at hab
      have hbd := stepTree_bound h.blocks h.front h.tree hp
      by_cases hpn : p < n
      · rw [Nat.mod_eq_of_lt hpn] at hab
        subst hab
        refine ⟨hpn, w, fun E N t hkt ht => ?_⟩
        obtain ⟨Q, hQ⟩ := exists_isTree (RepeatingAssembled n N A B C E)
        have hreal : Anc Q (t * n + a) (t * n + p) :=
          hk.real h.blocks hQ (by omega) ht (h.front_edge hp hpn)
        exact hQ.fill_up (ih E N t (by omega) ht) hreal (by have := block_lt hpn ht; omega)
      · have hmod : p % n = p - n := by
          rw [Nat.mod_eq_sub_mod (by omega), Nat.mod_eq_of_lt (by omega)]
        rw [hmod] at hab
        subst hab
        refine ⟨by omega, w + 1, fun E N t hkt ht => ?_⟩
        obtain ⟨Q, hQ⟩ := exists_isTree (RepeatingAssembled n N A B C E)
        have hreal := h.real_anc hk hQ (t := t - 1) (by omega) (by omega) (Anc.single hp)
        have e : (t - 1) * n + p = t * n + (p - n) := by
          have : (t - 1) * n + n = t * n := by
            rw [← Nat.succ_mul]
            congr 1
            omega
          omega
        rw [e] at hreal
        exact hQ.fill_up (ih E N (t - 1) (by omega) (by omega)) hreal
          (by have := block_lt (show p - n < n by omega) ht; omega)

end RepFix

end Ctldl
