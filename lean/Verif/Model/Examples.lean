import Verif.Model.Scan
import Verif.Model.Arrowhead

/-! # The example programs which read matrix files, `examples/repeating/example_mtx.cpp` and its structures -/

namespace Ctldl

/-! ### Structures -/

/-- `examples/repeating/mtx_includes/suitesparse/Bai/mhdb416/ctldl_repeating_mtx_include.hpp:13-50`. -/
def mtxStructureMhdb416 : Res ArrowheadSparsity := do
  let startDiag := emptySparsity 0 0
  let startNext := emptySparsity 16 0
  let startOuter := emptySparsity 0 0
  let tridiagDiag ← Sparsity.make 16 16 [
    ⟨0, 0⟩, ⟨1, 0⟩, ⟨1, 1⟩, ⟨2, 2⟩, ⟨3, 2⟩, ⟨3, 3⟩, ⟨4, 4⟩, ⟨5, 4⟩, ⟨5, 5⟩, ⟨6, 4⟩, ⟨6, 5⟩, ⟨6, 6⟩, ⟨7, 4⟩, ⟨7, 5⟩,
    ⟨7, 6⟩, ⟨7, 7⟩, ⟨8, 8⟩, ⟨9, 8⟩, ⟨9, 9⟩, ⟨10, 10⟩, ⟨11, 10⟩, ⟨11, 11⟩, ⟨12, 12⟩, ⟨13, 12⟩, ⟨13, 13⟩, ⟨14, 14⟩,
    ⟨15, 14⟩, ⟨15, 15⟩]
  let tridiagSubdiag ← Sparsity.make 16 16 [
    ⟨0, 1⟩, ⟨1, 1⟩, ⟨2, 2⟩, ⟨3, 2⟩, ⟨2, 3⟩, ⟨3, 3⟩, ⟨4, 5⟩, ⟨5, 5⟩, ⟨6, 5⟩, ⟨7, 5⟩, ⟨4, 7⟩, ⟨5, 7⟩, ⟨6, 7⟩, ⟨7, 7⟩,
    ⟨8, 9⟩, ⟨9, 9⟩, ⟨10, 11⟩, ⟨11, 11⟩, ⟨12, 12⟩, ⟨13, 12⟩, ⟨12, 13⟩, ⟨13, 13⟩, ⟨14, 14⟩, ⟨15, 14⟩, ⟨14, 15⟩, ⟨15, 15⟩]
  let linkPrev := emptySparsity 0 16
  let linkDiag := emptySparsity 0 0
  let linkNext := emptySparsity 0 0
  let outerSubdiag := emptySparsity 0 16
  let outerDiag := emptySparsity 0 0
  return {
    start := ⟨startDiag, startNext, startOuter, identityPermutation 0⟩
    tridiag := ⟨tridiagDiag, tridiagSubdiag, [0, 1, 2, 3, 4, 6, 5, 7, 8, 9, 10, 11, 12, 13, 14, 15]⟩
    link := ⟨linkPrev, linkDiag, linkNext, identityPermutation 0⟩
    outer := ⟨outerSubdiag, outerDiag, identityPermutation 0⟩ }

/-- `examples/repeating/mtx_includes/suitesparse/HB/nos2/ctldl_repeating_mtx_include.hpp:13-43`. -/
def mtxStructureNos2 : Res ArrowheadSparsity := do
  let startDiag := emptySparsity 0 0
  let startNext := emptySparsity 3 0
  let startOuter := emptySparsity 0 0
  let tridiagDiag ← Sparsity.make 3 3 [
    ⟨0, 0⟩, ⟨1, 1⟩, ⟨2, 2⟩]
  let tridiagSubdiag ← Sparsity.make 3 3 [
    ⟨0, 0⟩, ⟨1, 1⟩, ⟨2, 1⟩, ⟨1, 2⟩, ⟨2, 2⟩]
  let linkPrev := emptySparsity 0 3
  let linkDiag := emptySparsity 0 0
  let linkNext := emptySparsity 0 0
  let outerSubdiag := emptySparsity 0 3
  let outerDiag := emptySparsity 0 0
  return {
    start := ⟨startDiag, startNext, startOuter, identityPermutation 0⟩
    tridiag := ⟨tridiagDiag, tridiagSubdiag, [0, 1, 2]⟩
    link := ⟨linkPrev, linkDiag, linkNext, identityPermutation 0⟩
    outer := ⟨outerSubdiag, outerDiag, identityPermutation 0⟩ }

/-- `examples/repeating/mtx_includes/suitesparse/HB/nos4/ctldl_repeating_mtx_include.hpp:13-81`. -/
def mtxStructureNos4 : Res ArrowheadSparsity := do
  let startDiag := emptySparsity 0 0
  let startNext := emptySparsity 10 0
  let startOuter := emptySparsity 0 0
  let tridiagDiag ← Sparsity.make 10 10 [
    ⟨0, 0⟩, ⟨1, 0⟩, ⟨2, 0⟩, ⟨1, 1⟩, ⟨2, 2⟩, ⟨4, 2⟩, ⟨3, 3⟩, ⟨4, 4⟩, ⟨6, 4⟩, ⟨5, 5⟩, ⟨6, 6⟩, ⟨8, 6⟩, ⟨7, 7⟩, ⟨8, 8⟩,
    ⟨9, 8⟩, ⟨9, 9⟩]
  let tridiagSubdiag ← Sparsity.make 10 10 [
    ⟨2, 0⟩, ⟨3, 0⟩, ⟨1, 1⟩, ⟨2, 1⟩, ⟨3, 1⟩, ⟨3, 3⟩, ⟨2, 4⟩, ⟨3, 4⟩, ⟨6, 4⟩, ⟨7, 4⟩, ⟨2, 5⟩, ⟨3, 5⟩, ⟨5, 5⟩, ⟨6, 5⟩,
    ⟨7, 5⟩, ⟨7, 7⟩, ⟨6, 8⟩, ⟨7, 8⟩, ⟨6, 9⟩, ⟨7, 9⟩, ⟨9, 9⟩]
  let linkPrev := emptySparsity 0 10
  let linkDiag := emptySparsity 0 0
  let linkNext := emptySparsity 0 0
  let outerSubdiag := emptySparsity 0 10
  let outerDiag := emptySparsity 0 0
  return {
    start := ⟨startDiag, startNext, startOuter, identityPermutation 0⟩
    tridiag := ⟨tridiagDiag, tridiagSubdiag, [7, 8, 0, 4, 3, 2, 6, 5, 9, 1]⟩
    link := ⟨linkPrev, linkDiag, linkNext, identityPermutation 0⟩
    outer := ⟨outerSubdiag, outerDiag, identityPermutation 0⟩ }

/-- `examples/repeating/mtx_includes/transworhp/laufkatze/ctldl_repeating_mtx_include.hpp:13-201`. -/
def mtxStructureLaufkatze : Res ArrowheadSparsity := do
  let startDiag ← Sparsity.make 11 11 [
    ⟨0, 0⟩, ⟨1, 1⟩, ⟨2, 2⟩, ⟨5, 2⟩, ⟨7, 2⟩, ⟨3, 3⟩, ⟨4, 4⟩, ⟨5, 5⟩, ⟨6, 6⟩, ⟨7, 7⟩, ⟨8, 8⟩, ⟨9, 9⟩, ⟨10, 10⟩]
  let startNext ← Sparsity.make 20 11 [
    ⟨0, 0⟩, ⟨0, 1⟩, ⟨1, 1⟩, ⟨2, 2⟩, ⟨3, 2⟩, ⟨2, 3⟩, ⟨3, 3⟩, ⟨1, 4⟩, ⟨3, 4⟩, ⟨4, 4⟩, ⟨5, 5⟩, ⟨5, 6⟩, ⟨6, 6⟩, ⟨6, 7⟩,
    ⟨7, 7⟩, ⟨8, 8⟩, ⟨4, 9⟩, ⟨8, 9⟩, ⟨7, 10⟩, ⟨8, 10⟩]
  let startOuter ← Sparsity.make 1 11 [
    ⟨0, 1⟩, ⟨0, 2⟩, ⟨0, 3⟩, ⟨0, 4⟩, ⟨0, 6⟩, ⟨0, 7⟩, ⟨0, 9⟩, ⟨0, 10⟩]
  let tridiagDiag ← Sparsity.make 20 20 [
    ⟨9, 0⟩, ⟨10, 0⟩, ⟨10, 1⟩, ⟨13, 1⟩, ⟨11, 2⟩, ⟨12, 2⟩, ⟨11, 3⟩, ⟨12, 3⟩, ⟨13, 3⟩, ⟨14, 3⟩, ⟨16, 3⟩, ⟨13, 4⟩,
    ⟨18, 4⟩, ⟨14, 5⟩, ⟨15, 5⟩, ⟨15, 6⟩, ⟨16, 6⟩, ⟨16, 7⟩, ⟨19, 7⟩, ⟨17, 8⟩, ⟨18, 8⟩, ⟨19, 8⟩, ⟨9, 9⟩, ⟨10, 10⟩,
    ⟨11, 11⟩, ⟨14, 11⟩, ⟨16, 11⟩, ⟨12, 12⟩, ⟨13, 13⟩, ⟨14, 14⟩, ⟨16, 14⟩, ⟨15, 15⟩, ⟨16, 16⟩, ⟨17, 17⟩, ⟨18, 18⟩,
    ⟨19, 19⟩]
  let tridiagSubdiag ← Sparsity.make 20 20 [
    ⟨0, 9⟩, ⟨0, 10⟩, ⟨1, 10⟩, ⟨2, 11⟩, ⟨3, 11⟩, ⟨2, 12⟩, ⟨3, 12⟩, ⟨1, 13⟩, ⟨3, 13⟩, ⟨4, 13⟩, ⟨3, 14⟩, ⟨5, 14⟩,
    ⟨5, 15⟩, ⟨6, 15⟩, ⟨3, 16⟩, ⟨6, 16⟩, ⟨7, 16⟩, ⟨8, 17⟩, ⟨4, 18⟩, ⟨8, 18⟩, ⟨7, 19⟩, ⟨8, 19⟩]
  let linkPrev := emptySparsity 0 20
  let linkDiag := emptySparsity 0 0
  let linkNext := emptySparsity 1 0
  let outerSubdiag ← Sparsity.make 1 20 [
    ⟨0, 0⟩, ⟨0, 1⟩, ⟨0, 2⟩, ⟨0, 3⟩, ⟨0, 4⟩, ⟨0, 5⟩, ⟨0, 6⟩, ⟨0, 7⟩, ⟨0, 8⟩, ⟨0, 10⟩, ⟨0, 11⟩, ⟨0, 12⟩, ⟨0, 13⟩,
    ⟨0, 14⟩, ⟨0, 15⟩, ⟨0, 16⟩, ⟨0, 18⟩, ⟨0, 19⟩]
  let outerDiag ← Sparsity.make 1 1 [
    ⟨0, 0⟩]
  return {
    start := ⟨startDiag, startNext, startOuter, [0, 1, 2, 3, 4, 5, 6, 7, 8, 9, 10]⟩
    tridiag := ⟨tridiagDiag, tridiagSubdiag, [9, 17, 10, 18, 19, 12, 15, 11, 13, 14, 0, 1, 4, 8, 7, 2, 3, 5, 6, 16]⟩
    link := ⟨linkPrev, linkDiag, linkNext, identityPermutation 0⟩
    outer := ⟨outerSubdiag, outerDiag, [0]⟩ }

/-- `examples/repeating/mtx_includes/transworhp/opal/ctldl_repeating_mtx_include.hpp:13-260`. -/
def mtxStructureOpal : Res ArrowheadSparsity := do
  let startDiag := emptySparsity 0 0
  let startNext := emptySparsity 22 0
  let startOuter := emptySparsity 2 0
  let tridiagDiag ← Sparsity.make 22 22 [
    ⟨0, 0⟩, ⟨1, 0⟩, ⟨3, 0⟩, ⟨4, 0⟩, ⟨8, 0⟩, ⟨9, 0⟩, ⟨10, 0⟩, ⟨11, 0⟩, ⟨12, 0⟩, ⟨13, 0⟩, ⟨14, 0⟩, ⟨1, 1⟩, ⟨3, 1⟩,
    ⟨4, 1⟩, ⟨8, 1⟩, ⟨9, 1⟩, ⟨10, 1⟩, ⟨11, 1⟩, ⟨12, 1⟩, ⟨13, 1⟩, ⟨15, 1⟩, ⟨2, 2⟩, ⟨3, 2⟩, ⟨7, 2⟩, ⟨9, 2⟩, ⟨14, 2⟩,
    ⟨15, 2⟩, ⟨16, 2⟩, ⟨17, 2⟩, ⟨3, 3⟩, ⟨9, 3⟩, ⟨10, 3⟩, ⟨11, 3⟩, ⟨12, 3⟩, ⟨13, 3⟩, ⟨14, 3⟩, ⟨15, 3⟩, ⟨17, 3⟩, ⟨4, 4⟩,
    ⟨7, 4⟩, ⟨8, 4⟩, ⟨9, 4⟩, ⟨18, 4⟩, ⟨21, 4⟩, ⟨5, 5⟩, ⟨6, 5⟩, ⟨9, 5⟩, ⟨19, 5⟩, ⟨20, 5⟩, ⟨6, 6⟩, ⟨9, 6⟩, ⟨16, 6⟩,
    ⟨20, 6⟩, ⟨7, 7⟩, ⟨9, 7⟩, ⟨17, 7⟩, ⟨21, 7⟩, ⟨8, 8⟩, ⟨9, 8⟩, ⟨18, 8⟩, ⟨9, 9⟩, ⟨19, 9⟩, ⟨10, 10⟩, ⟨11, 11⟩, ⟨12, 12⟩,
    ⟨13, 13⟩]
  let tridiagSubdiag ← Sparsity.make 22 22 [
    ⟨0, 14⟩, ⟨2, 14⟩, ⟨3, 14⟩, ⟨1, 15⟩, ⟨2, 15⟩, ⟨3, 15⟩, ⟨2, 16⟩, ⟨6, 16⟩, ⟨2, 17⟩, ⟨3, 17⟩, ⟨7, 17⟩, ⟨4, 18⟩,
    ⟨8, 18⟩, ⟨5, 19⟩, ⟨9, 19⟩, ⟨5, 20⟩, ⟨6, 20⟩, ⟨4, 21⟩, ⟨7, 21⟩]
  let linkPrev ← Sparsity.make 14 22 [
    ⟨0, 14⟩, ⟨2, 14⟩, ⟨3, 14⟩, ⟨1, 15⟩, ⟨2, 15⟩, ⟨3, 15⟩, ⟨2, 16⟩, ⟨6, 16⟩, ⟨2, 17⟩, ⟨3, 17⟩, ⟨7, 17⟩, ⟨4, 18⟩,
    ⟨8, 18⟩, ⟨5, 19⟩, ⟨9, 19⟩, ⟨5, 20⟩, ⟨6, 20⟩, ⟨4, 21⟩, ⟨7, 21⟩]
  let linkDiag ← Sparsity.make 14 14 [
    ⟨0, 0⟩, ⟨10, 0⟩, ⟨11, 0⟩, ⟨12, 0⟩, ⟨13, 0⟩, ⟨1, 1⟩, ⟨10, 1⟩, ⟨11, 1⟩, ⟨12, 1⟩, ⟨13, 1⟩, ⟨2, 2⟩, ⟨3, 2⟩, ⟨7, 2⟩,
    ⟨3, 3⟩, ⟨10, 3⟩, ⟨11, 3⟩, ⟨12, 3⟩, ⟨13, 3⟩, ⟨4, 4⟩, ⟨7, 4⟩, ⟨5, 5⟩, ⟨6, 5⟩, ⟨6, 6⟩, ⟨7, 7⟩, ⟨8, 8⟩, ⟨9, 9⟩,
    ⟨10, 10⟩, ⟨11, 11⟩, ⟨12, 12⟩, ⟨13, 13⟩]
  let linkNext ← Sparsity.make 2 14 [
    ⟨0, 2⟩, ⟨0, 3⟩, ⟨0, 4⟩, ⟨0, 5⟩, ⟨0, 6⟩, ⟨0, 7⟩, ⟨0, 8⟩, ⟨0, 9⟩]
  let outerSubdiag ← Sparsity.make 2 22 [
    ⟨0, 0⟩, ⟨0, 1⟩, ⟨0, 2⟩, ⟨0, 3⟩, ⟨0, 4⟩, ⟨0, 5⟩, ⟨0, 6⟩, ⟨0, 7⟩, ⟨0, 8⟩, ⟨0, 9⟩, ⟨1, 13⟩, ⟨0, 14⟩, ⟨1, 14⟩,
    ⟨0, 15⟩, ⟨1, 15⟩, ⟨0, 16⟩, ⟨1, 16⟩, ⟨0, 17⟩, ⟨1, 17⟩, ⟨0, 18⟩, ⟨1, 18⟩, ⟨0, 19⟩, ⟨1, 19⟩, ⟨0, 20⟩, ⟨1, 20⟩,
    ⟨0, 21⟩, ⟨1, 21⟩]
  let outerDiag ← Sparsity.make 2 2 [
    ⟨0, 0⟩, ⟨1, 1⟩]
  return {
    start := ⟨startDiag, startNext, startOuter, identityPermutation 0⟩
    tridiag := ⟨tridiagDiag, tridiagSubdiag, [10, 11, 12, 13, 16, 20, 19, 18, 21, 17, 14, 15, 8, 4, 7, 0, 1, 3, 2, 6, 5, 9]⟩
    link := ⟨linkPrev, linkDiag, linkNext, [4, 5, 6, 7, 2, 8, 9, 10, 11, 12, 0, 1, 13, 3]⟩
    outer := ⟨outerSubdiag, outerDiag, [0, 1]⟩ }

/-- `examples/repeating/mtx_includes/transworhp/spline/ctldl_repeating_mtx_include.hpp:13-87`. -/
def mtxStructureSpline : Res ArrowheadSparsity := do
  let startDiag ← Sparsity.make 4 4 [
    ⟨0, 0⟩, ⟨1, 1⟩, ⟨2, 2⟩, ⟨3, 3⟩]
  let startNext ← Sparsity.make 7 4 [
    ⟨0, 0⟩, ⟨0, 1⟩, ⟨1, 1⟩, ⟨2, 2⟩, ⟨1, 3⟩, ⟨2, 3⟩]
  let startOuter := emptySparsity 0 4
  let tridiagDiag ← Sparsity.make 7 7 [
    ⟨0, 0⟩, ⟨3, 0⟩, ⟨4, 0⟩, ⟨1, 1⟩, ⟨4, 1⟩, ⟨6, 1⟩, ⟨2, 2⟩, ⟨5, 2⟩, ⟨6, 2⟩, ⟨3, 3⟩, ⟨4, 4⟩, ⟨5, 5⟩, ⟨6, 6⟩]
  let tridiagSubdiag ← Sparsity.make 7 7 [
    ⟨0, 3⟩, ⟨0, 4⟩, ⟨1, 4⟩, ⟨2, 5⟩, ⟨1, 6⟩, ⟨2, 6⟩]
  let linkPrev := emptySparsity 0 7
  let linkDiag := emptySparsity 0 0
  let linkNext := emptySparsity 0 0
  let outerSubdiag := emptySparsity 0 7
  let outerDiag := emptySparsity 0 0
  return {
    start := ⟨startDiag, startNext, startOuter, [0, 1, 2, 3]⟩
    tridiag := ⟨tridiagDiag, tridiagSubdiag, [3, 5, 4, 0, 1, 2, 6]⟩
    link := ⟨linkPrev, linkDiag, linkNext, identityPermutation 0⟩
    outer := ⟨outerSubdiag, outerDiag, identityPermutation 0⟩ }

/-- The targets of `examples/repeating/CMakeLists.txt:8-14`. -/
inductive MtxExample where
  | mhdb416 | nos2 | nos4 | laufkatze | opal | spline
  deriving DecidableEq

/-- `sparsity` of the program, `examples/repeating/example_mtx.cpp:19-24`. -/
def MtxExample.sparsity : MtxExample → Res ArrowheadSparsity
  | .mhdb416 => mtxStructureMhdb416
  | .nos2 => mtxStructureNos2
  | .nos4 => mtxStructureNos4
  | .laufkatze => mtxStructureLaufkatze
  | .opal => mtxStructureOpal
  | .spline => mtxStructureSpline

/-! ### The program -/

variable {K : Type _}

/-- A line of output: a heading or a number (its digits are not part of the model). -/
inductive OutputLine (K : Type _) where
  | heading (text : String)
  | number (value : K)
  deriving DecidableEq

/-- Output of the solution, `examples/repeating/example_mtx.cpp:75-98`. -/
def exampleMtxOutput (dimStart dimLink dimOuter : Nat) (solution : ArrowheadVector K) : List (OutputLine K) :=
  (if dimStart > 0 then .heading "------ start ------" :: solution.start.map .number else []) ++
  .heading "----- tridiag -----" :: (solution.tridiag.map fun solutionPart => solutionPart.map .number).flatten ++
  (if dimLink > 0 then .heading "------ link -------" :: solution.link.map .number else []) ++
  (if dimOuter > 0 then .heading "------ outer ------" :: solution.outer.map .number else [])

/-- The right-hand side, `examples/repeating/example_mtx.cpp:26-31, 55-60`. -/
def exampleMtxRhs [One K] (dimStart dimTridiag dimLink dimOuter numRepetitions : Nat) : ArrowheadVector K :=
  ⟨List.replicate dimStart 1, List.replicate (numRepetitions + 1) (List.replicate dimTridiag 1),
    List.replicate dimLink 1, List.replicate dimOuter 1⟩

/-- Body of the loop, `examples/repeating/example_mtx.cpp:63-73`. -/
def exampleMtxIteration [Zero K] [Sub K] [Mul K] [Div K] (dimTridiag dimLink dimOuter : Nat)
    (matrix : ArrowheadMatrix K) (regularize : K → Nat → K) (method : Method) (rhs : ArrowheadVector K)
    (state : ArrowheadFactor K × ArrowheadVector K) : Res (ArrowheadFactor K × ArrowheadVector K) := do
  let factorization ← state.1.factorize dimTridiag dimLink dimOuter matrix regularize method
  let rhsInSolutionOut ← factorization.solveInPlace rhs
  return (factorization, rhsInSolutionOut)

/-- `main` with two or three arguments, `examples/repeating/example_mtx.cpp:35-99`. Arguments are the content of the file
and the number of iterations; the regularization and the constructor, whose object has indeterminate numbers, are
parameters. -/
def exampleMtx [Zero K] [One K] [Sub K] [Mul K] [Div K] (convert : FloatLiteral → K)
    (construct : Nat → ArrowheadFactor K) (regularize : K → Nat → K) (method : Method) (s : ArrowheadSparsity)
    (text : List Char) (numIterations : Nat) : Res (List (OutputLine K)) := do
  let matrix ← mtxTextRead convert s text
  let numRepetitions := matrix.tridiagSubdiag.length
  let factorization := construct numRepetitions
  let rhs := exampleMtxRhs (← s.dimStart) (← s.dimTridiag) (← s.dimLink) (← s.dimOuter) numRepetitions
  let (_, solution) ← (List.range numIterations).foldlM
    (fun state _ => do
      exampleMtxIteration (← s.dimTridiag) (← s.dimLink) (← s.dimOuter) matrix.toMatrix regularize method rhs state)
    (factorization, rhs)
  return exampleMtxOutput (← s.dimStart) (← s.dimLink) (← s.dimOuter) solution

end Ctldl
