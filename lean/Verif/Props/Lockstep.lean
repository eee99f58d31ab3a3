import Verif.Lemmas.Lockstep
import Verif.Props.Environment
import Verif.Props.SingleResidual
import Verif.Props.Textbook

/-! # C83: without rounding the results are those of exact arithmetic -/

namespace Ctldl

open Finset

/-! ### Which operations are exact -/

variable {fmt : Format}

/-- The number for which a value of a binary format stands. -/
def Binary.number : Binary fmt → Option ℚ
  | .zero _ => some 0
  | .num x _ _ => some x
  | .inf _ => none
  | .nan => none

private theorem roundIn_represents {x : ℚ} (h : fmt.Represents x) (dir : Direction) : fmt.roundIn dir x = x := by
  obtain ⟨⟨m, e, hm, he, hx⟩, -⟩ := h
  by_cases h0 : x = 0
  · have h1 := dir.integer_le (q := x / 2 ^ fmt.unit x) (k := 0) (by rw [h0]; simp)
    have h2 := dir.le_integer (q := x / 2 ^ fmt.unit x) (k := 0) (by rw [h0]; simp)
    rw [Format.roundIn, le_antisymm h1 h2, h0]
    simp
  have hu : fmt.unit x ≤ e := by
    unfold Format.unit
    refine max_le ?_ he
    have h1 : |x| < 2 ^ ((fmt.precision : Int) + e) := by
      rw [hx, abs_mul, abs_of_pos (two_zpow_pos e), zpow_add₀ (by norm_num)]
      refine mul_lt_mul_of_pos_right ?_ (two_zpow_pos e)
      rw [zpow_natCast]
      exact_mod_cast hm
    have h2 := (Int.lt_zpow_iff_log_lt (b := 2) (by norm_num) (abs_pos.mpr h0)).mp (by exact_mod_cast h1)
    omega
  obtain ⟨k, hk⟩ : ∃ k : Int, x / 2 ^ fmt.unit x = k := by
    generalize fmt.unit x = u at hu
    refine ⟨m * 2 ^ (e - u).toNat, ?_⟩
    rw [hx, mul_div_assoc, ← zpow_sub₀ (by norm_num)]
    push_cast
    rw [← zpow_natCast, Int.toNat_of_nonneg (by omega)]
  have h1 := dir.integer_le (q := x / 2 ^ fmt.unit x) (k := k) hk.le
  have h2 := dir.le_integer (q := x / 2 ^ fmt.unit x) (k := k) hk.ge
  rw [Format.roundIn, le_antisymm h1 h2, ← hk, div_mul_cancel₀ _ (two_zpow_pos _).ne']

private theorem number_of_finite {a : Binary fmt} (h : a.Finite) : a.number = some a.toRat := by
  cases a <;> first
    | rfl
    | exact h.elim

private theorem toRat_represents (a : Binary fmt) : fmt.Represents a.toRat := by
  have h0 : fmt.Represents 0 :=
    ⟨⟨0, fmt.minExp, by simp, le_rfl, by simp⟩, by rw [abs_zero]; exact two_zpow_pos _⟩
  cases a with
  | num x hx hr => exact hr
  | _ => exact h0

private theorem number_some {a : Binary fmt} {x : ℚ} (h : a.number = some x) : a.Finite ∧ a.toRat = x := by
  cases a <;> first
    | exact ⟨trivial, Option.some.inj h⟩
    | exact absurd h (by simp [Binary.number])

private theorem exact_ofRat {s : Bool} {x : ℚ} : (Binary.ofRat fmt s x).number = some x ↔ fmt.Represents x := by
  constructor
  · intro h
    have := number_some h
    rw [← this.2]
    exact toRat_represents _
  · intro h
    have hr : fmt.round x = x := roundIn_represents h .nearest
    unfold Binary.ofRat
    split
    · next h' => rw [hr] at h'; rw [h']; rfl
    · rw [dif_pos (by rw [hr]; exact h.2)]
      show some (fmt.round x) = _
      rw [hr]

private theorem exactOperation_iff {f : ℚ → ℚ → ℚ} {a b c : Binary fmt} (ha : a.Finite) (hb : b.Finite) :
    ExactOperation Binary.number f a b c ↔ c.number = some (f a.toRat b.toRat) := by
  constructor
  · rintro ⟨x, y, hx, hy, h⟩
    rw [number_of_finite ha] at hx
    rw [number_of_finite hb] at hy
    rw [h, ← Option.some.inj hx, ← Option.some.inj hy]
  · exact fun h => ⟨_, _, number_of_finite ha, number_of_finite hb, h⟩

/-- C83: an operation with finite numbers is exact if and only if the exact result is a number of the format. Then it is
the same in all rounding directions. -/
theorem C83_exact_iff (fmt : Format) (a b : Binary fmt) (ha : a.Finite) (hb : b.Finite) :
    (ExactOperation Binary.number (· - ·) a b (a - b) ↔ fmt.Represents (a.toRat - b.toRat)) ∧
    (ExactOperation Binary.number (· * ·) a b (a * b) ↔ fmt.Represents (a.toRat * b.toRat)) ∧
    (b.toRat ≠ 0 → (ExactOperation Binary.number (· / ·) a b (a / b) ↔ fmt.Represents (a.toRat / b.toRat))) ∧
    ∀ x, fmt.Represents x → ∀ dir, fmt.roundIn dir x = x := by
  have h0 : fmt.Represents 0 := toRat_represents (.zero false)
  refine ⟨?_, ?_, fun hb0 => ?_, fun x hx dir => roundIn_represents hx dir⟩
  · rw [exactOperation_iff ha hb]
    cases a <;> cases b <;> first
      | exact ha.elim
      | exact hb.elim
      | exact exact_ofRat
      | (refine iff_of_true ?_ ?_
         · show some (0 : ℚ) = some (0 - 0)
           rw [sub_zero]
         · show fmt.Represents (0 - 0)
           rw [sub_zero]
           exact h0)
  · rw [exactOperation_iff ha hb]
    cases a <;> cases b <;> first
      | exact ha.elim
      | exact hb.elim
      | exact exact_ofRat
  · rw [exactOperation_iff ha hb]
    cases a <;> cases b <;> first
      | exact ha.elim
      | exact hb.elim
      | exact absurd rfl hb0
      | exact exact_ofRat

/-! ### The program -/

variable {K F : Type} [Zero K] [Sub K] [Mul K] [Div K]

section Lockstep

variable [Field F] [DecidableEq F] {number : K → Option F}

private theorem lockstep_value : Hom (Lockstep.value (number := number)) := ⟨rfl, fun _ _ => rfl, fun _ _ => rfl, fun _ _ => rfl⟩

private theorem lockstep_reference : Hom (Lockstep.reference (number := number)) :=
  ⟨rfl, fun _ _ => rfl, fun _ _ => rfl, fun _ _ => rfl⟩

private theorem lockstep_ofSize {K L : Type} {b : ArrowheadVector K} {d : Dims} {N : Nat} (g : K → L) (hb : b.OfSize d N) :
    (b.map g).OfSize d N :=
  ⟨by simp [ArrowheadVector.map, hb.num], by simp [ArrowheadVector.map, hb.start], by
    intro l hl
    obtain ⟨l', hl', rfl⟩ := List.mem_map.mp hl
    rw [List.length_map]
    exact hb.tridiag l' hl', by simp [ArrowheadVector.map, hb.link], by simp [ArrowheadVector.map, hb.outer]⟩

omit [Zero K] [Sub K] [Mul K] [Div K] in
private theorem factor_map_id (f : ArrowheadFactor K) : f.map (fun a => a) = f := by
  simp [ArrowheadFactor.map, DiagFactor.map, SubFactor.map]

omit [Zero K] [Sub K] [Mul K] [Div K] in
private theorem matrix_map_id (m : ArrowheadMatrix K) : m.map (fun a => a) = m := by
  simp [ArrowheadMatrix.map, MatIn.map]

omit [Zero K] [Sub K] [Mul K] [Div K] in
private theorem vector_map_id (b : ArrowheadVector K) : b.map (fun a => a) = b := by
  simp [ArrowheadVector.map]

/-- C83: factorizing and solving in the arithmetic of the program and in exact arithmetic, in lockstep. The execution `t`,
`y` with pairs consists of the execution of the program and of the one with the exact numbers; and values for which
all contributing operations were exact stand for the exact numbers. -/
theorem C83_lockstep (number : K → Option F) (s : ArrowheadSparsity) (d : Dims) (hs : s.Valid d) (T : ArrowheadTypes)
    (N : Nat) (f : ArrowheadFactor K) (hf : f.Declared s T d N) (A : ArrowheadMatrix K) (hA : A.Fits s T d N)
    (reg : K → Nat → K) (reg' : F → Nat → F) (method : Method) (b : ArrowheadVector K) (hb : b.OfSize d N) :
    ∃ (t : ArrowheadFactor (Lockstep number)) (y : ArrowheadVector (Lockstep number)),
      (f.map (.given number)).factorize d.tridiag d.link d.outer (A.map (.given number)) (Lockstep.lift reg reg') method =
        .ok t ∧
      t.solveInPlace (b.map (.given number)) = .ok y ∧
      f.factorize d.tridiag d.link d.outer A reg method = .ok (t.map (·.value)) ∧
      (t.map (·.value)).solveInPlace b = .ok (y.map (·.value)) ∧
      (let num (a : K) : F := (number a).getD 0
       (f.map num).factorize d.tridiag d.link d.outer (A.map num) reg' method = .ok (t.map (·.reference)) ∧
       (t.map (·.reference)).solveInPlace (b.map num) = .ok (y.map (·.reference))) ∧
      (∀ a ∈ blocks N, ∀ i < d.of a, (t.pivotAt a i).exact →
        number ((t.map (·.value)).pivotAt a i) = some ((t.map (·.reference)).pivotAt a i)) ∧
      (∀ k ∈ positions d N, ∀ l ∈ positions d N, (t.storedAt N k l).exact →
        number ((t.map (·.value)).storedAt N k l) = some ((t.map (·.reference)).storedAt N k l)) ∧
      (∀ a ∈ blocks N, ∀ i < d.of a, (y.at a i).exact →
        number ((y.map (·.value)).at a i) = some ((y.map (·.reference)).at a i)) := by
  obtain ⟨t, h1, hd⟩ := C21_factorize_total s d hs T N (f.map (.given number)) (hf.map _) (A.map (.given number)) (hA.map _)
    (Lockstep.lift reg reg') method
  obtain ⟨⟨y, h2, -⟩, -⟩ := C35_solve_total s d hs T N t hd (b.map (.given number)) (lockstep_ofSize _ hb)
  refine ⟨t, y, h1, h2, ?_, ?_, ⟨?_, ?_⟩, fun a _ i _ h => ?_, fun k _ l _ h => ?_, fun a _ i _ h => ?_⟩
  · have h0 := ArrowheadFactor.factorize_hom (reg := Lockstep.lift (number := number) reg reg') (reg' := reg) lockstep_value
      (fun _ _ => rfl) d.tridiag d.link d.outer (f.map (.given number)) (A.map (.given number)) method
    rw [ArrowheadFactor.map_map, ArrowheadMatrix.map_map, h1] at h0
    rw [← factor_map_id f, ← matrix_map_id A]
    exact h0
  · have h0 := ArrowheadFactor.solveInPlace_hom (lockstep_value (number := number)) t (b.map (.given number))
    rw [ArrowheadVector.map_map, h2] at h0
    rw [← vector_map_id b]
    exact h0
  · have h0 := ArrowheadFactor.factorize_hom (reg := Lockstep.lift (number := number) reg reg') (reg' := reg') lockstep_reference
      (fun _ _ => rfl) d.tridiag d.link d.outer (f.map (.given number)) (A.map (.given number)) method
    rw [ArrowheadFactor.map_map, ArrowheadMatrix.map_map, h1] at h0
    exact h0
  · have h0 := ArrowheadFactor.solveInPlace_hom (lockstep_reference (number := number)) t (b.map (.given number))
    rw [ArrowheadVector.map_map, h2] at h0
    exact h0
  · rw [pivotAt_map (g := Lockstep.value) rfl, pivotAt_map (g := Lockstep.reference) rfl]
    exact (t.pivotAt a i).sound h
  · rw [storedAt_map (g := Lockstep.value) rfl, storedAt_map (g := Lockstep.reference) rfl]
    exact (t.storedAt N k l).sound h
  · rw [ArrowheadVector.at_map (g := Lockstep.value) rfl, ArrowheadVector.at_map (g := Lockstep.reference) rfl]
    exact (y.at a i).sound h

private theorem lockstep_getD {L M : Type} [Zero L] [Zero M] {g : L → M} (hg : g 0 = 0) (l : List L) (i : Nat) :
    (l.map g).getD i 0 = g (l.getD i 0) := by
  simp only [List.getD_eq_getElem?_getD, List.getElem?_map]
  cases l[i]? <;> simp [hg]

private theorem lockstep_val {L M : Type} [Zero L] [Zero M] {g : L → M} (hg : g 0 = 0) (c : Csr) (l : List L) (i j : Nat) :
    val c (l.map g) i j = g (val c l i j) := by
  by_cases h : c.Has i j
  · rw [val_has h, val_has h, ← hg, List.getD_map]
  · rw [val_off h, val_off h, hg]

/-- C83: the same for single matrices. -/
theorem C83_lockstep_single (number : K → Option F) (s : Sparsity) (p : List Nat) (hv : ValidSparsity s p)
    (f : DiagFactor K) (hf : f.Declared s p) (m : MatIn K) (hm : m.Fits s p) (reg : K → Nat → K) (reg' : F → Nat → F)
    (method : Method) (b : List K) (hb : b.length = s.numRows) :
    ∃ (t : DiagFactor (Lockstep number)) (y : List (Lockstep number)),
      (f.map (.given number)).factorize (m.map (.given number)) (Lockstep.lift reg reg') method = .ok t ∧
      t.solveInPlace (b.map (.given number)) = .ok y ∧
      f.factorize m reg method = .ok (t.map (·.value)) ∧
      (t.map (·.value)).solveInPlace b = .ok (y.map (·.value)) ∧
      (let num (a : K) : F := (number a).getD 0
       (f.map num).factorize (m.map num) reg' method = .ok (t.map (·.reference)) ∧
       (t.map (·.reference)).solveInPlace (b.map num) = .ok (y.map (·.reference))) ∧
      (∀ i, (t.pivot i).exact → number ((t.map (·.value)).pivot i) = some ((t.map (·.reference)).pivot i)) ∧
      (∀ i j, (t.lower i j).exact → number ((t.map (·.value)).lower i j) = some ((t.map (·.reference)).lower i j)) ∧
      (∀ i, (y.getD i 0).exact → number ((y.map (·.value)).getD i 0) = some ((y.map (·.reference)).getD i 0)) := by
  obtain ⟨t, h1, hd⟩ := C25_factorize_total s p hv (f.map (.given number)) (hf.map' _) (m.map (.given number)) (hm.map' _)
    (Lockstep.lift reg reg') method
  obtain ⟨y, h2, -⟩ := C73_solve s p hv t hd (b.map (.given number)) (by rw [List.length_map, hb])
  refine ⟨t, y, h1, h2, ?_, ?_, ⟨?_, ?_⟩, fun i h => ?_, fun i j h => ?_, fun i h => ?_⟩
  · have h0 := DiagFactor.factorize_hom (reg := Lockstep.lift (number := number) reg reg') (reg' := reg) lockstep_value
      (fun _ _ => rfl) (f.map (.given number)) (m.map (.given number)) method
    rw [h1] at h0
    rw [show (f.map (.given number)).map Lockstep.value = f by simp [DiagFactor.map, Function.comp_def, Lockstep.given],
      show (m.map (.given number)).map Lockstep.value = m by simp [MatIn.map, Function.comp_def, Lockstep.given]] at h0
    exact h0
  · have h0 := DiagFactor.solveInPlace_hom (lockstep_value (number := number)) t (b.map (.given number))
    rw [h2, show (b.map (.given number)).map Lockstep.value = b by simp [Function.comp_def, Lockstep.given]] at h0
    exact h0
  · have h0 := DiagFactor.factorize_hom (reg := Lockstep.lift (number := number) reg reg') (reg' := reg') lockstep_reference
      (fun _ _ => rfl) (f.map (.given number)) (m.map (.given number)) method
    rw [h1] at h0
    rw [show (f.map (.given number)).map Lockstep.reference = f.map (fun a => (number a).getD 0) by
        simp [DiagFactor.map, Function.comp_def, Lockstep.given],
      show (m.map (.given number)).map Lockstep.reference = m.map (fun a => (number a).getD 0) by
        simp [MatIn.map, Function.comp_def, Lockstep.given]] at h0
    exact h0
  · have h0 := DiagFactor.solveInPlace_hom (lockstep_reference (number := number)) t (b.map (.given number))
    rw [h2, show (b.map (.given number)).map Lockstep.reference = b.map (fun a => (number a).getD 0) by
      simp [Function.comp_def, Lockstep.given]] at h0
    exact h0
  · rw [show (t.map Lockstep.value).pivot i = (t.pivot i).value from lockstep_getD rfl t.D i,
      show (t.map Lockstep.reference).pivot i = (t.pivot i).reference from lockstep_getD rfl t.D i]
    exact (t.pivot i).sound h
  · rw [show (t.map Lockstep.value).lower i j = (t.lower i j).value from lockstep_val rfl _ _ _ _,
      show (t.map Lockstep.reference).lower i j = (t.lower i j).reference from lockstep_val rfl _ _ _ _]
    exact (t.lower i j).sound h
  · rw [lockstep_getD (g := Lockstep.value) rfl, lockstep_getD (g := Lockstep.reference) rfl]
    exact (y.getD i 0).sound h

end Lockstep

section Solution

variable [Field F] [LinearOrder F] [IsStrictOrderedRing F] {number : K → Option F}

omit [Sub K] [Mul K] [Div K] [IsStrictOrderedRing F] in
private theorem given_zero (h0 : number 0 = some 0) : Lockstep.given number 0 = 0 := by
  show (⟨_, _, _, _⟩ : Lockstep number) = ⟨_, _, _, _⟩
  simp [h0]

/-- C83: if the operations which contributed to the pivots and to the solution were exact, then the solution is exact: it
solves the given system. -/
theorem C83_solution (number : K → Option F) (h0 : number 0 = some 0) (s : ArrowheadSparsity) (d : Dims) (hs : s.Valid d)
    (T : ArrowheadTypes) (N : Nat) (f : ArrowheadFactor K) (hf : f.Declared s T d N) (A : ArrowheadMatrix K)
    (hA : A.Fits s T d N) (method : Method) (b : ArrowheadVector K) (hb : b.OfSize d N)
    (t : ArrowheadFactor (Lockstep number))
    (ht : (f.map (.given number)).factorize d.tridiag d.link d.outer (A.map (.given number))
      (Lockstep.lift regularizationNone regularizationNone) method = .ok t)
    (y : ArrowheadVector (Lockstep number)) (hy : t.solveInPlace (b.map (.given number)) = .ok y)
    (hpiv : ∀ a ∈ blocks N, ∀ i < d.of a, (t.pivotAt a i).exact) (hsol : ∀ a ∈ blocks N, ∀ i < d.of a, (y.at a i).exact) :
    ∃ f' x, f.factorize d.tridiag d.link d.outer A regularizationNone method = .ok f' ∧ f'.solveInPlace b = .ok x ∧
      let num (a : K) : F := (number a).getD 0
      (∀ a ∈ blocks N, ∀ i < d.of a, ∃ z, number (x.at a i) = some z) ∧
      ∀ a ∈ blocks N, ∀ i < d.of a, ∑ c ∈ blocks N, ∑ j ∈ range (d.of c),
        num (A.symElement N a c i j) * num (x.at c j) = num (b.at a i) := by
  obtain ⟨t', y', h1, h2, h3, h4, -, -, -, h5⟩ := C83_lockstep number s d hs T N f hf A hA regularizationNone
    regularizationNone method b hb
  obtain rfl : t = t' := Except.ok.inj (ht.symm.trans h1)
  obtain rfl : y = y' := Except.ok.inj (hy.symm.trans h2)
  have hx : ∀ a ∈ blocks N, ∀ i < d.of a, number ((y.map (·.value)).at a i) = some (y.at a i).reference := by
    intro a ha i hi
    rw [h5 a ha i hi (hsol a ha i hi), ArrowheadVector.at_map (g := Lockstep.reference) rfl]
  refine ⟨_, _, h3, h4, fun a ha i hi => ⟨_, hx a ha i hi⟩, fun a ha i hi => ?_⟩
  obtain ⟨i, hi', rfl⟩ := (valid_perm hs a).surj hi
  let R := Lockstep.rounding number h0
  have hg : ∀ k, R.growth k = 1 := fun k => by
    show 1 / (1 - (0 : F)) ^ k = 1
    simp
  have hγ : ∀ k, R.gamma k = 0 := fun k => by rw [Rounding.gamma, hg, sub_self]
  obtain ⟨w, hw, hr⟩ := C47_residual R s d hs T N (f.map (.given number)) (hf.map _) (A.map (.given number)) (hA.map _)
    (Lockstep.lift regularizationNone regularizationNone) method t h1
    (fun a ha i hi => ⟨hpiv a ha i hi, fun x hx => by
      have := hpiv a ha i hi
      rw [hx] at this
      exact (Bool.and_eq_true _ _ |>.mp this).1⟩) 0 le_rfl (fun _ _ _ _ _ _ _ => by rw [show R.η = 0 from rfl, zero_mul])
    (b.map (.given number)) (lockstep_ofSize _ hb) y h2 hsol
    (∑ a ∈ blocks N, ∑ i ∈ range (d.of a), T.rowEntries N a i)
    (fun a ha i hi => (single_le_sum (f := fun i => T.rowEntries N a i) (fun _ _ => Nat.zero_le _) (mem_range.mpr hi)).trans
      (single_le_sum (f := fun a => ∑ i ∈ range (d.of a), T.rowEntries N a i) (fun _ _ => Nat.zero_le _) ha))
    (∑ a ∈ blocks N, ∑ i ∈ range (d.of a), T.colEntries N a i)
    (fun a ha i hi => (single_le_sum (f := fun i => T.colEntries N a i) (fun _ _ => Nat.zero_le _) (mem_range.mpr hi)).trans
      (single_le_sum (f := fun a => ∑ i ∈ range (d.of a), T.colEntries N a i) (fun _ _ => Nat.zero_le _) ha))
  have h6 := hr a ha i hi'
  have hwp : R.v (t.pivotAt a i) = R.v (w a i) := by rw [hw a ha i hi']; rfl
  rw [hwp] at h6
  simp only [hγ, sub_self, ite_self, add_zero, show R.η = 0 from rfl, mul_zero, zero_mul, sum_const_zero] at h6
  have h7 := abs_nonpos_iff.mp h6
  rw [sub_eq_zero] at h7
  rw [ArrowheadVector.at_map (given_zero h0)] at h7
  refine Eq.trans ?_ h7.symm
  refine sum_congr rfl fun c hc => ?_
  rw [← sum_perm (valid_perm hs c)]
  refine sum_congr rfl fun j hj => ?_
  have hj' := (perm_facts (valid_perm hs c)).1 j hj
  beta_reduce
  rw [hx c hc _ (mem_range.mp hj'), matrix_symElement_map rfl, matrix_symElement_map (given_zero h0)]
  rfl

/-- C83: the same for single matrices. -/
theorem C83_solution_single (number : K → Option F) (h0 : number 0 = some 0) (s : Sparsity) (p : List Nat)
    (hv : ValidSparsity s p) (f : DiagFactor K) (hf : f.Declared s p) (m : MatIn K) (hm : m.Fits s p) (method : Method)
    (b : List K) (hb : b.length = s.numRows) (t : DiagFactor (Lockstep number))
    (ht : (f.map (.given number)).factorize (m.map (.given number))
      (Lockstep.lift regularizationNone regularizationNone) method = .ok t)
    (y : List (Lockstep number)) (hy : t.solveInPlace (b.map (.given number)) = .ok y)
    (hpiv : ∀ i < s.numRows, (t.pivot i).exact) (hsol : ∀ i < s.numRows, (y.getD i 0).exact) :
    ∃ f' x, f.factorize m regularizationNone method = .ok f' ∧ f'.solveInPlace b = .ok x ∧
      let num (a : K) : F := (number a).getD 0
      (∀ i < s.numRows, ∃ z, number (x.getD i 0) = some z) ∧
      ∀ i < s.numRows, ∑ j ∈ range s.numRows, num (m.sym i j) * num (x.getD j 0) = num (b.getD i 0) := by
  obtain ⟨t', y', h1, h2, h3, h4, -, -, -, h5⟩ := C83_lockstep_single number s p hv f hf m hm regularizationNone
    regularizationNone method b hb
  obtain rfl : t = t' := Except.ok.inj (ht.symm.trans h1)
  obtain rfl : y = y' := Except.ok.inj (hy.symm.trans h2)
  have hx : ∀ i < s.numRows, number ((y.map (·.value)).getD i 0) = some (y.getD i 0).reference := by
    intro i hi
    rw [h5 i (hsol i hi), lockstep_getD (g := Lockstep.reference) rfl]
  refine ⟨_, _, h3, h4, fun i hi => ⟨_, hx i hi⟩, fun i hi => ?_⟩
  obtain ⟨i, hi', rfl⟩ := hv.perm.surj hi
  let R := Lockstep.rounding number h0
  have hg : ∀ k, R.growth k = 1 := fun k => by
    show 1 / (1 - (0 : F)) ^ k = 1
    simp
  have hγ : ∀ k, R.gamma k = 0 := fun k => by rw [Rounding.gamma, hg, sub_self]
  obtain ⟨w, hw, hr⟩ := C47_single_residual R s p hv (f.map (.given number)) (hf.map' _) (m.map (.given number)) (hm.map' _)
    (Lockstep.lift regularizationNone regularizationNone) method t h1
    (fun i hi => ⟨hpiv i hi, fun x hx => by
      have := hpiv i hi
      rw [hx] at this
      exact (Bool.and_eq_true _ _ |>.mp this).1⟩) 0 le_rfl (fun _ _ _ => by rw [show R.η = 0 from rfl, zero_mul])
    (b.map (.given number)) (by rw [List.length_map, hb]) y h2 hsol
    (∑ i ∈ range s.numRows, t.sparsity.rowEntries i)
    (fun i hi => single_le_sum (f := fun i => t.sparsity.rowEntries i) (fun _ _ => Nat.zero_le _) (mem_range.mpr hi))
    (∑ i ∈ range s.numRows, t.sparsity.colEntries i)
    (fun i hi => single_le_sum (f := fun i => t.sparsity.colEntries i) (fun _ _ => Nat.zero_le _) (mem_range.mpr hi))
  have h6 := hr i hi'
  have hwp : R.v (t.pivot i) = R.v (w i) := by rw [hw i hi']; rfl
  rw [hwp] at h6
  simp only [hγ, sub_self, ite_self, add_zero, show R.η = 0 from rfl, mul_zero, zero_mul, sum_const_zero] at h6
  have h7 := abs_nonpos_iff.mp h6
  rw [sub_eq_zero, lockstep_getD (given_zero h0)] at h7
  refine Eq.trans ?_ h7.symm
  rw [← sum_perm hv.perm]
  refine sum_congr rfl fun j hj => ?_
  have hj' := (perm_facts hv.perm).1 j hj
  beta_reduce
  rw [hx _ (mem_range.mp hj'), sym_map (given_zero h0)]
  rfl

end Solution

/-! ### Examples -/

/-- Witness: a matrix of the pattern of C29 whose pivots are powers of two. -/
def exactM : ArrowheadMatrix ℚ :=
  { arrowM with
    startDiag := ⟨arrowM.startDiag.sparsity, [2]⟩
    tridiagDiag := [⟨⟨2, 2, [⟨0, 0⟩, ⟨1, 0⟩, ⟨1, 1⟩]⟩, [5, 1, 2]⟩, ⟨⟨2, 2, [⟨0, 0⟩, ⟨1, 0⟩, ⟨1, 1⟩]⟩, [81 / 16, 1, 2]⟩]
    linkDiag := ⟨arrowM.linkDiag.sparsity, [9 / 4]⟩
    outerDiag := ⟨arrowM.outerDiag.sparsity, [41353 / 8192]⟩ }

theorem exactM_fits {T : ArrowheadTypes} (hT : arrowheadTypes arrowS = .ok T) : exactM.Fits arrowS T arrowD 1 := by
  refine C21_declared_fits arrowS arrowD arrowS_valid T hT 1 exactM (by decide) (by decide) (by decide) ?_ ?_
  · have : ∀ b ∈ ([.start, .tridiag 0, .tridiag 1, .link, .outer] : List Blk), (exactM.diagBlock b).Sized ∧
        (exactM.diagBlock b).sparsity = arrowS.diagBlock b := by
      unfold MatIn.Sized
      decide +kernel
    intro b hb
    refine this b ?_
    rw [mem_blocks] at hb
    rcases b with _ | (_ | _ | t) | _ | _
    any_goals simp
    have := hb _ rfl
    omega
  · intro a b q h
    rcases a with _ | (_ | t) | _ | _ <;> rcases b with _ | u | _ | _ <;>
      simp only [ArrowheadMatrix.lowerBlock] at h <;> try contradiction
    · rw [← Option.some.inj h]
      exact ⟨rfl, rfl⟩
    · split at h
      · next hc =>
        obtain ⟨rfl, hc⟩ := hc
        obtain rfl : u = 0 := by omega
        rw [← Option.some.inj h]
        exact ⟨rfl, rfl⟩
      · cases h
    · split at h
      · next hc =>
        subst hc
        rw [← Option.some.inj h]
        exact ⟨rfl, rfl⟩
      · cases h
    · rw [← Option.some.inj h]
      exact ⟨rfl, rfl⟩
    · split at h
      · next hc =>
        rcases u with _ | _ | u
        · rw [← Option.some.inj h]
          exact ⟨rfl, rfl⟩
        · rw [← Option.some.inj h]
          exact ⟨rfl, rfl⟩
        · omega
      · cases h
    · rw [← Option.some.inj h]
      exact ⟨rfl, rfl⟩

/-- Witness: double precision numbers in lockstep with rational ones. -/
abbrev DoubleLockstep := Lockstep (Binary.number (fmt := .binary64))

/-- The execution in lockstep. -/
def exactRun (A : ArrowheadMatrix ℚ) (method : Method) :
    Res (ArrowheadTypes × ArrowheadFactor DoubleLockstep × ArrowheadVector DoubleLockstep) := do
  let T ← arrowheadTypes arrowS
  let f ← ((freshFactor arrowS T arrowD 1 (0 : Double)).map (.given Binary.number)).factorize 2 1 1
    ((A.map (Binary.ofRat .binary64 false)).map (.given Binary.number))
    (Lockstep.lift regularizationNone regularizationNone) method
  let x ← f.solveInPlace (doubleB.map (.given Binary.number))
  return (T, f, x)

/-- The condition to be checked. -/
def exactCheck (r : ArrowheadTypes × ArrowheadFactor DoubleLockstep × ArrowheadVector DoubleLockstep) : Bool :=
  decide (∀ a ∈ blocks 1, ∀ i ∈ List.range (arrowD.of a), (r.2.1.pivotAt a i).exact ∧ (r.2.2.at a i).exact)

/-- The hypotheses of C83 are met by a solve with double precision numbers in which no rounding takes place. -/
example (method : Method) : ∃ T t y, (exactM.map (Binary.ofRat .binary64 false)).Fits arrowS T arrowD 1 ∧
    (freshFactor arrowS T arrowD 1 (0 : Double)).Declared arrowS T arrowD 1 ∧ doubleB.OfSize arrowD 1 ∧
    ((freshFactor arrowS T arrowD 1 (0 : Double)).map (.given Binary.number)).factorize 2 1 1
      ((exactM.map (Binary.ofRat .binary64 false)).map (.given Binary.number))
      (Lockstep.lift regularizationNone regularizationNone) method = .ok t ∧
    t.solveInPlace (doubleB.map (.given Binary.number)) = .ok y ∧
    ∀ a ∈ blocks 1, ∀ i < arrowD.of a, (t.pivotAt a i).exact ∧ (y.at a i).exact := by
  have h : (exactRun exactM method).map exactCheck = .ok true := by
    cases method <;> decide +kernel
  cases hrun : exactRun exactM method with
  | error e => rw [hrun] at h; cases h
  | ok r =>
    rw [hrun] at h
    have h := of_decide_eq_true (Except.ok.inj h)
    unfold exactRun at hrun
    obtain ⟨T, hT, hrun⟩ := bind_eq_ok.mp hrun
    obtain ⟨t, ht, hrun⟩ := bind_eq_ok.mp hrun
    obtain ⟨y, hy, hrun⟩ := bind_eq_ok.mp hrun
    cases hrun
    exact ⟨T, t, y, (exactM_fits hT).map _, C21_constructible arrowS arrowD T hT 1 0, by constructor <;> decide, ht, hy,
      fun a ha i hi => h a ha i (List.mem_range.mpr hi)⟩

/-- With the matrix of C29, there is rounding; but the first pivots are exact. -/
example : (exactRun arrowM .upLooking).map (fun r => (exactCheck r, (r.2.1.pivotAt .start 0).exact,
    (r.2.1.pivotAt (.tridiag 0) 0).exact, (r.2.1.pivotAt .outer 0).exact)) = .ok (false, true, true, false) := by
  decide +kernel

/-- The execution in lockstep for a single matrix; the last pivot is the given value minus `5 / 16`. -/
def exactSingle (d : ℚ) : Res (DiagFactor DoubleLockstep × List DoubleLockstep) := do
  let f : DiagFactor Double := witnessF.map (Binary.ofRat .binary64 false)
  let m : MatIn ℚ := ⟨witnessS, [d, 2, -1, 4, 100, 5]⟩
  let f ← (f.map (.given Binary.number)).factorize
    ((m.map (Binary.ofRat .binary64 false)).map (.given Binary.number))
    (Lockstep.lift regularizationNone regularizationNone) .entryWise
  let x ← f.solveInPlace (([1, 2, 3].map (Binary.ofRat .binary64 false)).map (.given Binary.number))
  return (f, x)

/-- Without rounding for the pivot `2`; only the pivots are exact for the pivot `43 / 16`. -/
example : (exactSingle (37 / 16)).map (fun r => (r.1.D.map (·.exact), r.2.map (·.exact))) =
      .ok ([true, true, true], [true, true, true]) ∧
    (exactSingle 3).map (fun r => (r.1.D.map (·.exact), r.2.map (·.exact))) =
      .ok ([true, true, true], [false, false, false]) := by
  decide +kernel

end Ctldl
