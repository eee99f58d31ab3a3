import Verif.Lemmas.DoubleRounding
import Verif.Lemmas.Hom
import Verif.Props.Extended
import Verif.Props.Comparison

/-! # C89: intermediate results in a format which is wide enough change nothing -/

namespace Ctldl

variable {fmt ext : Format}

/-- Operations in the wider format with rounding of the results are the operations of the type. -/
private theorem twice_hom (h : fmt.TwiceAsWide ext) : Hom (Extended.ofBinary (fmt := fmt) ext) where
  zero := rfl
  sub a b := by
    change (⟨(), _⟩ : Extended fmt ext .none) = ⟨(), ((a.convert ext - b.convert ext).convert fmt).convert ext⟩
    rw [Binary.sub_twice h]
  mul a b := by
    change (⟨(), _⟩ : Extended fmt ext .none) = ⟨(), ((a.convert ext * b.convert ext).convert fmt).convert ext⟩
    rw [Binary.mul_twice h]
  div a b := by
    change (⟨(), _⟩ : Extended fmt ext .none) = ⟨(), ((a.convert ext / b.convert ext).convert fmt).convert ext⟩
    rw [Binary.div_twice h]

/-- C89: nothing is lost when numbers of the type are read back from the wider format. -/
theorem C89_read_back (h : fmt.TwiceAsWide ext) (x : Binary fmt) : (Extended.ofBinary ext x).value.convert fmt = x :=
  Binary.convert_back h.wider x

/-- C89: factorizing a repeating block matrix and solving a system with it gives the same numbers, the same failures and the
same undefined behaviour, if all operations are evaluated in a format with more than twice the precision and their results
are rounded to the type. -/
theorem C89_repeating (h : fmt.TwiceAsWide ext) (d : Dims) (f : ArrowheadFactor (Binary fmt))
    (A : ArrowheadMatrix (Binary fmt)) (reg : Binary fmt → Nat → Binary fmt)
    (reg' : Extended fmt ext .none → Nat → Extended fmt ext .none)
    (hreg : ∀ x i, Extended.ofBinary ext (reg x i) = reg' (Extended.ofBinary ext x) i) (method : Method)
    (b : ArrowheadVector (Binary fmt)) :
    (do
      let g ← (f.map (Extended.ofBinary ext)).factorize d.tridiag d.link d.outer (A.map (Extended.ofBinary ext)) reg' method
      let x ← g.solveInPlace (b.map (Extended.ofBinary ext))
      return (g, x)) =
    (do
      let g ← f.factorize d.tridiag d.link d.outer A reg method
      let x ← g.solveInPlace b
      return (g.map (Extended.ofBinary ext), x.map (Extended.ofBinary ext))) := by
  rw [ArrowheadFactor.factorize_hom (reg := reg) (twice_hom h) hreg]
  cases hg : f.factorize d.tridiag d.link d.outer A reg method with
  | error e => rfl
  | ok g =>
    change ((g.map (Extended.ofBinary ext)).solveInPlace (b.map (Extended.ofBinary ext)) >>= fun x => _) = _
    rw [ArrowheadFactor.solveInPlace_hom (twice_hom h)]
    change (do return (← g.solveInPlace b).map (Extended.ofBinary ext)) >>= _ = g.solveInPlace b >>= _
    cases hx : g.solveInPlace b <;> rfl

/-- C89: the same for single matrices. -/
theorem C89_single (h : fmt.TwiceAsWide ext) (f : DiagFactor (Binary fmt)) (m : MatIn (Binary fmt))
    (reg : Binary fmt → Nat → Binary fmt) (reg' : Extended fmt ext .none → Nat → Extended fmt ext .none)
    (hreg : ∀ x i, Extended.ofBinary ext (reg x i) = reg' (Extended.ofBinary ext x) i) (method : Method)
    (b : List (Binary fmt)) :
    (do
      let g ← (f.map (Extended.ofBinary ext)).factorize (m.map (Extended.ofBinary ext)) reg' method
      let x ← g.solveInPlace (b.map (Extended.ofBinary ext))
      return (g, x)) =
    (do
      let g ← f.factorize m reg method
      let x ← g.solveInPlace b
      return (g.map (Extended.ofBinary ext), x.map (Extended.ofBinary ext))) := by
  rw [DiagFactor.factorize_hom (reg := reg) (twice_hom h) hreg]
  cases hg : f.factorize m reg method with
  | error e => rfl
  | ok g =>
    change ((g.map (Extended.ofBinary ext)).solveInPlace (b.map (Extended.ofBinary ext)) >>= fun x => _) = _
    rw [DiagFactor.solveInPlace_hom (twice_hom h)]
    change (do return (← g.solveInPlace b).map (Extended.ofBinary ext)) >>= _ = g.solveInPlace b >>= _
    cases hx : g.solveInPlace b <;> rfl

/-! ### Formats -/

/-- C89: doubles are wide enough for floats. -/
theorem C89_float_double : Format.binary32.TwiceAsWide Format.binary64 :=
  ⟨by decide, by decide, by decide, by decide, by decide, by decide, by decide⟩

/-- Numbers with four times the length of floats. -/
def Format.binary128 : Format := ⟨113, -16494, 16384, by decide⟩

/-- C89: numbers with four times the length of floats are wide enough for doubles. -/
theorem C89_double_quadruple : Format.binary64.TwiceAsWide Format.binary128 :=
  ⟨by decide, by decide, by decide, by decide, by decide, by decide, by decide⟩

/-! ### The format of the x87 processor is not wide enough for doubles

Even if all results are rounded to doubles, those of a program which computes with the precision of the x87 processor can
differ from those of one which computes with doubles. -/

/-- A matrix of doubles. -/
def twiceM : MatIn Double := ⟨twoS, [dbl 1, dbl (-1), dbl 2]⟩

/-- A right hand side. -/
def twiceB : List Double := [dbl (1 + 2 ^ (-20 : Int)), dbl (2 ^ 53)]

/-- C89: a counterexample for formats which are wider, but not twice as wide: the solutions are not the same. -/
theorem C89_x87 : ∃ f x g y, twoF.factorize twiceM regularizationNone .upLooking = .ok f ∧ f.solveInPlace twiceB = .ok x ∧
    (twoF.map (Extended.ofBinary .x87)).factorize (twiceM.map (Extended.ofBinary .x87)) regularizationNone .upLooking = .ok g ∧
    g.solveInPlace (twiceB.map (Extended.ofBinary .x87)) = .ok y ∧
    (x.getD 1 0).Finite ∧ ((y.getD 1 0).value.convert .binary64).Finite ∧
    ((y.getD 1 0).value.convert .binary64).toRat ≠ (x.getD 1 0).toRat := by
  have h : (do
      let f ← twoF.factorize twiceM regularizationNone .upLooking
      let x ← f.solveInPlace twiceB
      let g ← (twoF.map (Extended.ofBinary .x87)).factorize (twiceM.map (Extended.ofBinary .x87)) regularizationNone .upLooking
      let y ← g.solveInPlace (twiceB.map (Extended.ofBinary .x87))
      return decide ((x.getD 1 0).Finite ∧ ((y.getD 1 0).value.convert .binary64).Finite ∧
        ((y.getD 1 0).value.convert .binary64).toRat ≠ (x.getD 1 0).toRat)) = (.ok true : Res Bool) := by decide +kernel
  obtain ⟨f, h1, h⟩ := bind_eq_ok.mp h
  obtain ⟨x, h2, h⟩ := bind_eq_ok.mp h
  obtain ⟨g, h3, h⟩ := bind_eq_ok.mp h
  obtain ⟨y, h4, h⟩ := bind_eq_ok.mp h
  exact ⟨f, x, g, y, h1, h2, h3, h4, of_decide_eq_true (Except.ok.inj h)⟩

/-! ### Cases meeting the hypotheses -/

/-- Doubles evaluated in the wider format: the solution of the system above. -/
example : ∃ f x, twoF.factorize twiceM regularizationNone .upLooking = .ok f ∧ f.solveInPlace twiceB = .ok x ∧
    (do
      let g ← (twoF.map (Extended.ofBinary .binary128)).factorize (twiceM.map (Extended.ofBinary .binary128))
        regularizationNone .upLooking
      let x ← g.solveInPlace (twiceB.map (Extended.ofBinary .binary128))
      return (g, x)) = .ok (f.map (Extended.ofBinary .binary128), x.map (Extended.ofBinary .binary128)) := by
  obtain ⟨f, x, -, -, h1, h2, -⟩ := C89_x87
  refine ⟨f, x, h1, h2, ?_⟩
  rw [C89_single C89_double_quadruple twoF twiceM regularizationNone regularizationNone (fun _ _ => rfl) .upLooking twiceB]
  exact bind_eq_ok.mpr ⟨f, h1, bind_eq_ok.mpr ⟨x, h2, rfl⟩⟩

/-- Floats evaluated as doubles: a repeating block matrix. -/
example (b : ArrowheadVector (Binary .binary32)) (T : ArrowheadTypes) :
    (do
      let g ← ((freshFactor arrowS T arrowD 1 (0 : Binary .binary32)).map (Extended.ofBinary .binary64)).factorize 2 1 1
        ((arrowM.map (Binary.ofRat .binary32 false)).map (Extended.ofBinary .binary64)) regularizationNone .upLooking
      let x ← g.solveInPlace (b.map (Extended.ofBinary .binary64))
      return (g, x)) =
    (do
      let g ← (freshFactor arrowS T arrowD 1 (0 : Binary .binary32)).factorize 2 1 1 (arrowM.map (Binary.ofRat .binary32 false))
        regularizationNone .upLooking
      let x ← g.solveInPlace b
      return (g.map (Extended.ofBinary .binary64), x.map (Extended.ofBinary .binary64))) :=
  C89_repeating C89_float_double arrowD _ _ regularizationNone regularizationNone (fun _ _ => rfl) .upLooking b

end Ctldl
