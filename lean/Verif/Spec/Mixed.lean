import Verif.Spec.Rounding
import Verif.Spec.Binary

/-! # Specification vocabulary: conversion between number types -/

namespace Ctldl

variable {M K F : Type} [Zero M] [Zero K] [Sub K] [Mul K] [Div K] [Field F] [LinearOrder F] [IsStrictOrderedRing F]

/-- A conversion to a number type with rounding, from another one whose numbers stand for the given numbers: finite
results are exact up to a relative error of at most `u` and an absolute error of at most `η` (underflow). -/
structure Conversion (R : Rounding K F) (v : M → F) (cast : M → K) : Prop where
  zero : cast 0 = 0
  v_zero : v 0 = 0
  err : ∀ {x : M}, R.fin (cast x) → ∃ δ e, |δ| ≤ R.u ∧ |e| ≤ R.η ∧ R.v (cast x) = v x * (1 + δ) + e

/-- The number is stored in the factor. -/
def DiagFactor.Stores {K : Type} (f : DiagFactor K) (y : K) : Prop := y ∈ f.L ∨ y ∈ f.D

/-- The number is stored in the factor. -/
def ArrowheadFactor.Stores {K : Type} (f : ArrowheadFactor K) (y : K) : Prop :=
  f.startDiag.Stores y ∨ y ∈ f.startNext.L ∨ y ∈ f.startOuter.L ∨ (∃ g ∈ f.tridiagDiag, g.Stores y) ∨
  (∃ g ∈ f.tridiagSubdiag, y ∈ g.L) ∨ y ∈ f.linkPrev.L ∨ f.linkDiag.Stores y ∨ y ∈ f.linkNext.L ∨
  (∃ g ∈ f.outerSubdiag, y ∈ g.L) ∨ f.outerDiag.Stores y

/-- Conversion between binary formats, as `static_cast` between `float` and `double`. -/
def Binary.convert {fmt : Format} (fmt' : Format) : Binary fmt → Binary fmt'
  | .zero s => .zero s
  | .num x _ _ => .ofRat fmt' (x < 0) x
  | .inf s => .inf s
  | .nan => .nan

/-- All numbers of the first format are numbers of the second one. -/
structure Format.Wider (fmt fmt' : Format) : Prop where
  precision : fmt.precision ≤ fmt'.precision
  minExp : fmt'.minExp ≤ fmt.minExp
  maxExp : fmt.maxExp ≤ fmt'.maxExp

end Ctldl
