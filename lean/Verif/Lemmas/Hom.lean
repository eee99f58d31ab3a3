import Verif.Lemmas.Cast

/-!
# Functions between number types which respect the operations

A function which respects `0`, `-`, `*` and `/` may be applied before or after factorizing and solving.
-/

namespace Ctldl

variable {K K' α α' β β' γ : Type}

/-- The function respects the operations used for factorizing and solving. -/
structure Hom [Zero K] [Sub K] [Mul K] [Div K] [Zero K'] [Sub K'] [Mul K'] [Div K'] (h : K → K') : Prop where
  zero : h 0 = 0
  sub : ∀ a b, h (a - b) = h a - h b
  mul : ∀ a b, h (a * b) = h a * h b
  div : ∀ a b, h (a / b) = h a / h b

theorem wr_map (g : α → β) (l : List α) (i : Nat) (a : α) :
    wr (l.map g) i (g a) = (do return (← wr l i a).map g) := by
  simp only [wr, List.length_map]
  split
  · exact congrArg _ List.map_set.symm
  · rfl

theorem foldlM_hom (g : β → γ) (f : β → α → Res β) (f' : γ → α → Res γ)
    (hf : ∀ b a, f' (g b) a = (do return g (← f b a))) (l : List α) (b : β) :
    l.foldlM f' (g b) = (do return g (← l.foldlM f b)) := by
  induction l generalizing b with
  | nil => rfl
  | cons a l ih =>
    simp only [List.foldlM_cons, hf, bind_assoc, pure_bind, ih]

theorem bind_hom {x : Res α} {x' : Res α'} {k : α → Res β} {k' : α' → Res β'} {g₂ : β → β'} (g : α → α')
    (hx : x' = (do return g (← x))) (hk : ∀ a, k' (g a) = (do return g₂ (← k a))) :
    (x' >>= k') = (do return g₂ (← x >>= k)) := by
  rw [hx, bind_assoc, bind_assoc]
  exact bind_congr fun a => by rw [pure_bind, hk]

theorem bind_hom_same {x : Res α} {k : α → Res β} {k' : α → Res β'} {g₂ : β → β'}
    (hk : ∀ a, k' a = (do return g₂ (← k a))) : (x >>= k') = (do return g₂ (← x >>= k)) := by
  rw [bind_assoc]
  exact bind_congr hk

theorem pure_hom {g : α → β} {a : α} {b : β} (hb : b = g a) : (pure b : Res β) = (do return g (← pure a)) := by
  rw [hb, pure_bind]

variable [Zero K] [Sub K] [Mul K] [Div K] [Zero K'] [Sub K'] [Mul K'] [Div K'] {h : K → K'} (hh : Hom h)

include hh

/-! ## Factorizing -/

theorem getInitialFactorValueL_hom (entryIndex : Nat) (init : Init K) (sparsity : Csr)
    (origEntry : Entry → Res Entry) (L : List K) :
    getInitialFactorValueL entryIndex (init.map h) sparsity origEntry (L.map h) =
      (do return h (← getInitialFactorValueL entryIndex init sparsity origEntry L)) := by
  cases init with
  | none r c =>
    simp only [getInitialFactorValueL, Init.map, rd_map]
    split <;> rfl
  | matrix m => simp only [getInitialFactorValueL, Init.map, getMatrixValueAt_map hh.zero, bind_assoc]

theorem getInitialFactorValueD_hom (rowIndex : Nat) (init : Init K) (factor : DiagFactor K) :
    getInitialFactorValueD rowIndex (init.map h) (factor.map h) =
      (do return h (← getInitialFactorValueD rowIndex init factor)) := by
  cases init with
  | none r c =>
    simp only [getInitialFactorValueD, Init.map, DiagFactor.map, rd_map]
    split <;> rfl
  | matrix m =>
    simp only [getInitialFactorValueD, Init.map, getMatrixValueAt_map hh.zero, bind_assoc]
    rfl

theorem fillRowWithOriginalMatrixValues_hom (i : Nat) (input : MatIn K) (sparsity : Csr)
    (origEntry : Entry → Res Entry) (L : List K) :
    fillRowWithOriginalMatrixValues i (input.map h) sparsity origEntry (L.map h) =
      (do return (← fillRowWithOriginalMatrixValues i input sparsity origEntry L).map h) := by
  simp only [fillRowWithOriginalMatrixValues, bind_assoc]
  refine bind_congr fun _ => bind_congr fun _ => bind_congr fun _ => ?_
  refine foldlM_hom (List.map h) _ _ (fun b a => ?_) _ _
  simp only [getMatrixValueAt_map hh.zero, bind_assoc, pure_bind, wr_map]

theorem initializeFactorRow_hom (i : Nat) (init : Init K) (sparsity : Csr)
    (origEntry : Entry → Res Entry) (L : List K) :
    initializeFactorRow i (init.map h) sparsity origEntry (L.map h) =
      (do return (← initializeFactorRow i init sparsity origEntry L).map h) := by
  cases init with
  | none r c =>
    simp only [initializeFactorRow, Init.map]
    split <;> rfl
  | matrix m => exact fillRowWithOriginalMatrixValues_hom hh i m sparsity origEntry L

theorem fillDiagonalWithOriginalMatrixValue_hom (i : Nat) (input : MatIn K) (fact : DiagFactor K) :
    fillDiagonalWithOriginalMatrixValue i (input.map h) (fact.map h) =
      (do return (← fillDiagonalWithOriginalMatrixValue i input fact).map h) := by
  simp only [fillDiagonalWithOriginalMatrixValue, getMatrixValueAt_map hh.zero, bind_assoc, pure_bind, DiagFactor.map,
    wr_map]
  rfl

theorem fillWithOriginalMatrixValuesIncludingDiagonal_hom (input : MatIn K) (fact : DiagFactor K) :
    fillWithOriginalMatrixValuesIncludingDiagonal (input.map h) (fact.map h) =
      (do return (← fillWithOriginalMatrixValuesIncludingDiagonal input fact).map h) := by
  refine foldlM_hom (fun f : DiagFactor K => f.map h) _ _ (fun f a => ?_) _ _
  simp only [bind_assoc]
  refine (congrArg (· >>= _) (fillRowWithOriginalMatrixValues_hom hh a input f.sparsity f.origEntry f.L)).trans ?_
  simp only [bind_assoc, pure_bind]
  exact bind_congr fun L => fillDiagonalWithOriginalMatrixValue_hom hh a input { f with L := L }

theorem factorEntryWiseSubdiagonalImplRow_hom (entryIndex : Nat) (factor21 : SubFactor K) (init21 : Init K)
    (factor11 : DiagFactor K) :
    factorEntryWiseSubdiagonalImplRow entryIndex (factor21.map h) (init21.map h) (factor11.map h) =
      (do return (← factorEntryWiseSubdiagonalImplRow entryIndex factor21 init21 factor11).map h) := by
  refine bind_hom_same fun entry => ?_
  refine bind_hom h (getInitialFactorValueL_hom hh ..) fun _ => bind_hom_same fun _ => ?_
  refine bind_hom h (foldlM_hom h _ _ (fun b a => ?_) _ _) fun v => ?_
  · simp only [SubFactor.map, DiagFactor.map, rd_map, bind_assoc, pure_bind, hh.sub, hh.mul]
  refine bind_hom h (rd_map ..) fun d => bind_hom (List.map h) ?_ fun L => rfl
  rw [← hh.div]
  exact wr_map ..

theorem factorizeEntryWiseSubdiagonal_hom (factor21 : SubFactor K) (init21 : Init K) (factor11 : DiagFactor K) :
    factorizeEntryWiseSubdiagonal (factor21.map h) (init21.map h) (factor11.map h) =
      (do return (← factorizeEntryWiseSubdiagonal factor21 init21 factor11).map h) := by
  refine foldlM_hom (fun f : SubFactor K => f.map h) _ _ (fun f a => ?_) _ _
  refine bind_hom_same fun _ => bind_hom_same fun _ => bind_hom_same fun _ => ?_
  exact foldlM_hom (fun f : SubFactor K => f.map h) _ _
    (fun f a => factorEntryWiseSubdiagonalImplRow_hom hh a f init21 factor11) _ _

theorem applyContributionsRowDiagonal_hom (i : Nat) (fact : SubFactor K) (diag : DiagFactor K) (valueInit : K) :
    applyContributionsRowDiagonal i (fact.map h) (diag.map h) (h valueInit) =
      (do return h (← applyContributionsRowDiagonal i fact diag valueInit)) := by
  refine bind_hom_same fun _ => bind_hom_same fun _ => bind_hom_same fun _ => ?_
  refine foldlM_hom h _ _ (fun b a => ?_) _ _
  simp only [SubFactor.map, DiagFactor.map, rd_map, bind_assoc, pure_bind, hh.sub, hh.mul]

theorem applyContributions_hom (L D : List K) (contributions : List Contribution) (valueInit : K) :
    applyContributions (L.map h) (D.map h) contributions (h valueInit) =
      (do return h (← applyContributions L D contributions valueInit)) := by
  refine foldlM_hom h _ _ (fun b a => ?_) _ _
  simp only [rd_map, bind_assoc, pure_bind, hh.sub, hh.mul]

theorem factorizeEntryWiseImplRow_hom (entryIndex : Nat) (factor22 : DiagFactor K) (init22 : Init K)
    (factor21 : SubFactor K) (factor11 : DiagFactor K) :
    factorizeEntryWiseImplRow entryIndex (factor22.map h) (init22.map h) (factor21.map h) (factor11.map h) =
      (do
        let r ← factorizeEntryWiseImplRow entryIndex factor22 init22 factor21 factor11
        return (r.1.map h, h r.2)) := by
  refine bind_hom_same fun entry => ?_
  refine bind_hom h (getInitialFactorValueL_hom hh ..) fun _ => bind_hom_same fun _ => bind_hom_same fun _ => ?_
  refine bind_hom h (applyContributions_hom hh ..) fun _ => bind_hom h (applyContributions_hom hh ..) fun v => ?_
  refine bind_hom h (rd_map ..) fun d => bind_hom (List.map h) ?_ fun L => ?_
  · rw [← hh.div]
    exact wr_map ..
  · exact pure_hom (Prod.ext rfl (by simp only [hh.mul, hh.div]))

variable {reg : K → Nat → K} {reg' : K' → Nat → K'} (hreg : ∀ a i, h (reg a i) = reg' (h a) i)

include hreg

theorem factorizeEntryWiseRow_hom (init22 : Init K) (factor21 : SubFactor K) (factor11 : DiagFactor K)
    (factor22 : DiagFactor K) (i : Nat) :
    factorizeEntryWiseRow (init22.map h) (factor21.map h) (factor11.map h) reg' (factor22.map h) i =
      (do return (← factorizeEntryWiseRow init22 factor21 factor11 reg factor22 i).map h) := by
  refine bind_hom_same fun _ => bind_hom_same fun _ => ?_
  refine bind_hom h (getInitialFactorValueD_hom hh ..) fun _ => ?_
  refine bind_hom h (applyContributionsRowDiagonal_hom hh ..) fun _ => bind_hom_same fun _ => ?_
  refine bind_hom (fun r : DiagFactor K × K => (r.1.map h, h r.2))
    (foldlM_hom (fun r : DiagFactor K × K => (r.1.map h, h r.2)) _ _ (fun b a => ?_) _ (factor22, _))
    fun st => ?_
  · refine bind_hom _ (factorizeEntryWiseImplRow_hom hh ..) fun st => ?_
    obtain ⟨f, c⟩ := st
    exact pure_hom (Prod.ext rfl (hh.sub ..).symm)
  · refine bind_hom (List.map h) ?_ fun L => rfl
    simp only [← hreg]
    exact wr_map ..

theorem factorizeEntryWiseDiagonal_hom (factor22 : DiagFactor K) (init22 : Init K) (factor21 : SubFactor K)
    (factor11 : DiagFactor K) :
    factorizeEntryWiseDiagonal (factor22.map h) (init22.map h) (factor21.map h) (factor11.map h) reg' =
      (do return (← factorizeEntryWiseDiagonal factor22 init22 factor21 factor11 reg).map h) :=
  bind_hom_same fun _ => foldlM_hom (fun f : DiagFactor K => f.map h) _ _
    (fun f a => factorizeEntryWiseRow_hom hh hreg init22 factor21 factor11 f a) _ _

omit hh hreg [Zero K] [Sub K] [Mul K] [Div K] [Zero K'] [Sub K'] [Mul K'] [Div K'] in
theorem factorizeStaticAsserts_hom (factor11 : DiagFactor K) (init21 init22 : Init K) (factor21 : SubFactor K)
    (factor22 : DiagFactor K) :
    factorizeStaticAsserts (factor11.map h) (init21.map h) (init22.map h) (factor21.map h) (factor22.map h) =
      factorizeStaticAsserts factor11 init21 init22 factor21 factor22 := by
  simp only [factorizeStaticAsserts, Init.sparsity_map]
  rfl

/-- Apply the function to all numbers of a pair of blocks. -/
abbrev mapBlocks (h : K → K') (st : SubFactor K × DiagFactor K) : SubFactor K' × DiagFactor K' :=
  (st.1.map h, st.2.map h)

theorem factorizeEntryWise_hom (factor11 : DiagFactor K) (init21 init22 : Init K) (factor21 : SubFactor K)
    (factor22 : DiagFactor K) :
    factorizeEntryWise (factor11.map h) (init21.map h) (init22.map h) (factor21.map h) (factor22.map h) reg' =
      (do return mapBlocks h (← factorizeEntryWise factor11 init21 init22 factor21 factor22 reg)) := by
  unfold factorizeEntryWise
  rw [factorizeStaticAsserts_hom]
  refine bind_hom_same fun _ => bind_hom _ (factorizeEntryWiseSubdiagonal_hom hh ..) fun _ => ?_
  exact bind_hom _ (factorizeEntryWiseDiagonal_hom hh hreg ..) fun _ => rfl

omit hreg in
theorem applyInfluenced_hom (source target : List K) (list : List Influenced) (LijScaled : K) :
    applyInfluenced (source.map h) (target.map h) list (h LijScaled) =
      (do return (← applyInfluenced source target list LijScaled).map h) := by
  refine foldlM_hom (List.map h) _ _ (fun b a => ?_) _ _
  simp only [rd_map, bind_assoc, pure_bind, ← hh.sub, ← hh.mul, wr_map]

omit hreg in
theorem applyInfluencedSelf_hom (L : List K) (list : List Influenced) (LijScaled : K) :
    applyInfluencedSelf (L.map h) list (h LijScaled) =
      (do return (← applyInfluencedSelf L list LijScaled).map h) := by
  refine foldlM_hom (List.map h) _ _ (fun b a => ?_) _ _
  simp only [rd_map, bind_assoc, pure_bind, ← hh.sub, ← hh.mul, wr_map]

omit hreg in
theorem factorizeUpLookingInnerSelf_hom (entryIndex : Nat) (fact : DiagFactor K) :
    factorizeUpLookingInnerSelf entryIndex (fact.map h) =
      (do
        let r ← factorizeUpLookingInnerSelf entryIndex fact
        return (r.1.map h, h r.2)) := by
  refine bind_hom_same fun entry => bind_hom h (rd_map ..) fun l => bind_hom_same fun _ => ?_
  refine bind_hom _ (applyInfluencedSelf_hom hh ..) fun L => bind_hom h (rd_map ..) fun d => ?_
  refine bind_hom (List.map h) ?_ fun L => ?_
  · rw [← hh.div]
    exact wr_map ..
  · exact pure_hom (Prod.ext rfl (by simp only [hh.mul, hh.div]))

omit hreg in
theorem factorizeUpLookingInnerLeft_hom (entryIndex : Nat) (factor11 : DiagFactor K) (factor21 : SubFactor K)
    (factor22 : DiagFactor K) :
    factorizeUpLookingInnerLeft entryIndex (factor11.map h) (factor21.map h) (factor22.map h) =
      (do
        let r ← factorizeUpLookingInnerLeft entryIndex factor11 factor21 factor22
        return (r.1.map h, r.2.1.map h, h r.2.2)) := by
  refine bind_hom_same fun entry => bind_hom h (rd_map ..) fun l => bind_hom_same fun _ => ?_
  refine bind_hom _ (applyInfluenced_hom hh ..) fun L => bind_hom_same fun _ => ?_
  refine bind_hom _ (applyInfluenced_hom hh ..) fun L => bind_hom h (rd_map ..) fun d => ?_
  refine bind_hom (List.map h) ?_ fun L => ?_
  · rw [← hh.div]
    exact wr_map ..
  · refine pure_hom ?_
    simp only [hh.mul, hh.div]
    rfl

omit hreg in
theorem factorizeUpLookingInnerLeft3_hom (entryIndex : Nat) (factor11 : DiagFactor K) (factor21 : SubFactor K)
    (factor31 factor32 : SubFactor K) (factor33 : DiagFactor K) :
    factorizeUpLookingInnerLeft3 entryIndex (factor11.map h) (factor21.map h) (factor31.map h) (factor32.map h)
        (factor33.map h) =
      (do
        let r ← factorizeUpLookingInnerLeft3 entryIndex factor11 factor21 factor31 factor32 factor33
        return (r.1.map h, r.2.1.map h, r.2.2.1.map h, h r.2.2.2)) := by
  refine bind_hom_same fun entry => bind_hom h (rd_map ..) fun l => bind_hom_same fun _ => ?_
  refine bind_hom _ (applyInfluenced_hom hh ..) fun L => bind_hom_same fun _ => ?_
  refine bind_hom _ (applyInfluenced_hom hh ..) fun L => bind_hom_same fun _ => ?_
  refine bind_hom _ (applyInfluenced_hom hh ..) fun L => bind_hom h (rd_map ..) fun d => ?_
  refine bind_hom (List.map h) ?_ fun L => ?_
  · rw [← hh.div]
    exact wr_map ..
  · refine pure_hom ?_
    simp only [hh.mul, hh.div]
    rfl

theorem factorizeUpLookingImpl_hom (factor11 : DiagFactor K) (init21 init22 : Init K)
    (st : SubFactor K × DiagFactor K) (i : Nat) :
    factorizeUpLookingImpl (factor11.map h) (init21.map h) (init22.map h) reg' (mapBlocks h st) i =
      (do return mapBlocks h (← factorizeUpLookingImpl factor11 init21 init22 reg st i)) := by
  refine bind_hom_same fun _ => bind_hom h (getInitialFactorValueD_hom hh ..) fun d => ?_
  refine bind_hom (List.map h) (initializeFactorRow_hom hh ..) fun L21 => ?_
  refine bind_hom (List.map h) (initializeFactorRow_hom hh ..) fun L22 => ?_
  refine bind_hom_same fun _ => bind_hom_same fun _ => bind_hom_same fun _ => ?_
  refine bind_hom (fun r : SubFactor K × DiagFactor K × K => (r.1.map h, r.2.1.map h, h r.2.2))
    (foldlM_hom (fun r : SubFactor K × DiagFactor K × K => (r.1.map h, r.2.1.map h, h r.2.2)) _ _ (fun b a => ?_) _ ({ st.1 with L := L21 }, { st.2 with L := L22 }, d)) fun r => ?_
  · refine bind_hom _ (factorizeUpLookingInnerLeft_hom hh ..) fun r => ?_
    obtain ⟨f, g, c⟩ := r
    exact pure_hom (Prod.ext rfl (Prod.ext rfl (hh.sub ..).symm))
  refine bind_hom_same fun _ => bind_hom_same fun _ => bind_hom_same fun _ => ?_
  refine bind_hom (fun r : DiagFactor K × K => (r.1.map h, h r.2))
    (foldlM_hom (fun r : DiagFactor K × K => (r.1.map h, h r.2)) _ _ (fun b a => ?_) _ (r.2.1, r.2.2))
    fun s => ?_
  · refine bind_hom _ (factorizeUpLookingInnerSelf_hom hh ..) fun st => ?_
    obtain ⟨f, c⟩ := st
    exact pure_hom (Prod.ext rfl (hh.sub ..).symm)
  · refine bind_hom (List.map h) ?_ fun L => rfl
    simp only [← hreg]
    exact wr_map ..

theorem factorizeUpLooking_hom (factor11 : DiagFactor K) (init21 init22 : Init K) (factor21 : SubFactor K)
    (factor22 : DiagFactor K) :
    factorizeUpLooking (factor11.map h) (init21.map h) (init22.map h) (factor21.map h) (factor22.map h) reg' =
      (do return mapBlocks h (← factorizeUpLooking factor11 init21 init22 factor21 factor22 reg)) := by
  unfold factorizeUpLooking
  rw [factorizeStaticAsserts_hom]
  exact bind_hom_same fun _ => foldlM_hom (mapBlocks h) _ _
    (fun st i => factorizeUpLookingImpl_hom hh hreg factor11 init21 init22 st i) _ (factor21, factor22)

/-- Apply the function to all numbers of three blocks. -/
abbrev mapBlocks3 (h : K → K') (st : SubFactor K × SubFactor K × DiagFactor K) :
    SubFactor K' × SubFactor K' × DiagFactor K' := (st.1.map h, st.2.1.map h, st.2.2.map h)

omit hreg in
theorem factorizePartialUpLookingImpl_hom (factor11 : DiagFactor K) (factor21 : SubFactor K)
    (init31 init32 init33 : Init K) (st : SubFactor K × SubFactor K × DiagFactor K) (i : Nat) :
    factorizePartialUpLookingImpl (factor11.map h) (factor21.map h) (init31.map h) (init32.map h) (init33.map h)
        (mapBlocks3 h st) i =
      (do return mapBlocks3 h (← factorizePartialUpLookingImpl factor11 factor21 init31 init32 init33 st i)) := by
  refine bind_hom (List.map h) (initializeFactorRow_hom hh ..) fun L31 => ?_
  refine bind_hom (List.map h) (initializeFactorRow_hom hh ..) fun L32 => ?_
  refine bind_hom (List.map h) (initializeFactorRow_hom hh ..) fun L33 => bind_hom h (rd_map ..) fun d => ?_
  refine bind_hom_same fun _ => bind_hom_same fun _ => bind_hom_same fun _ => ?_
  refine bind_hom (fun r : SubFactor K × SubFactor K × DiagFactor K × K =>
      (r.1.map h, r.2.1.map h, r.2.2.1.map h, h r.2.2.2))
    (foldlM_hom (fun r : SubFactor K × SubFactor K × DiagFactor K × K =>
      (r.1.map h, r.2.1.map h, r.2.2.1.map h, h r.2.2.2)) _ _ (fun b a => ?_) _
      ({ st.1 with L := L31 }, { st.2.1 with L := L32 }, { st.2.2 with L := L33 }, d)) fun r => ?_
  · refine bind_hom _ (factorizeUpLookingInnerLeft3_hom hh ..) fun r => ?_
    obtain ⟨f, g, k, c⟩ := r
    exact pure_hom (Prod.ext rfl (Prod.ext rfl (Prod.ext rfl (hh.sub ..).symm)))
  · exact bind_hom (List.map h) (wr_map ..) fun L => rfl

omit hreg in
theorem factorizePartialUpLooking_hom (factor11 : DiagFactor K) (factor21 : SubFactor K)
    (init31 init32 init33 : Init K) (factor31 factor32 : SubFactor K) (factor33 : DiagFactor K) :
    factorizePartialUpLooking (factor11.map h) (factor21.map h) (init31.map h) (init32.map h) (init33.map h)
        (factor31.map h) (factor32.map h) (factor33.map h) =
      (do
        let r ← factorizePartialUpLooking factor11 factor21 init31 init32 init33 factor31 factor32 factor33
        return mapBlocks3 h r) :=
  foldlM_hom (mapBlocks3 h) _ _
    (fun st i => factorizePartialUpLookingImpl_hom hh factor11 factor21 init31 init32 init33 st i) _
    (factor31, factor32, factor33)

theorem factorizeBlocks_hom (factor11 : DiagFactor K) (init21 init22 : Init K) (factor21 : SubFactor K)
    (factor22 : DiagFactor K) (method : Method) :
    factorizeBlocks (factor11.map h) (init21.map h) (init22.map h) (factor21.map h) (factor22.map h) reg' method =
      (do return mapBlocks h (← factorizeBlocks factor11 init21 init22 factor21 factor22 reg method)) := by
  cases method
  · exact factorizeEntryWise_hom hh hreg ..
  · exact factorizeUpLooking_hom hh hreg ..

theorem DiagFactor.factorize_hom (factor : DiagFactor K) (matrix : MatIn K) (method : Method) :
    (factor.map h).factorize (matrix.map h) reg' method =
      (do return (← factor.factorize matrix reg method).map h) := by
  refine bind_hom (fun f : SubFactor K => f.map h) ?_ fun empty21 => ?_
  · simp only [emptyFactorDataLeft, bind_assoc, pure_bind]
    rfl
  refine bind_hom (fun f : DiagFactor K => f.map h) ?_ fun empty11 => ?_
  · simp only [emptyFactorDataDiagonal, bind_assoc, pure_bind]
    rfl
  exact bind_hom _ (factorizeBlocks_hom hh hreg empty11 (.matrix (emptyMatrixInput K factor.sparsity.numRows 0))
    (.matrix matrix) empty21 factor method) fun _ => rfl

theorem ArrowheadFactor.factorizeInner_hom (f : ArrowheadFactor K) (input : ArrowheadMatrix K) (method : Method) :
    (f.map h).factorizeInner (input.map h) reg' method =
      (do return (← f.factorizeInner input reg method).map h) := by
  unfold ArrowheadFactor.factorizeInner
  have hn : (f.map h).numRepetitions = f.numRepetitions := List.length_map ..
  rw [hn]
  refine bind_hom _ (DiagFactor.factorize_hom hh hreg ..) fun startDiag => ?_
  refine bind_hom _ (rd_map ..) fun a0 => bind_hom _ (rd_map ..) fun d0 => ?_
  refine bind_hom _ (factorizeBlocks_hom hh hreg startDiag (.matrix input.startNext) (.matrix a0) ..) fun r => ?_
  refine bind_hom _ (wr_map (fun f : DiagFactor K => f.map h) ..) fun tridiagDiag => ?_
  refine bind_hom (Prod.map (List.map (fun f : DiagFactor K => f.map h)) (List.map (fun f : SubFactor K => f.map h)))
    (foldlM_hom (Prod.map (List.map (fun f : DiagFactor K => f.map h)) (List.map (fun f : SubFactor K => f.map h))) _ _ (fun st i => ?_) _ (tridiagDiag, f.tridiagSubdiag)) fun st => ?_
  · refine bind_hom _ (rd_map ..) fun f11 => bind_hom _ (rd_map ..) fun b => bind_hom _ (rd_map ..) fun a => ?_
    refine bind_hom _ (rd_map ..) fun f21 => bind_hom _ (rd_map ..) fun f22 => ?_
    refine bind_hom _ (factorizeBlocks_hom hh hreg f11 (.matrix b) (.matrix a) ..) fun r => ?_
    refine bind_hom _ (wr_map (fun f : DiagFactor K => f.map h) ..) fun _ => ?_
    exact bind_hom _ (wr_map (fun f : SubFactor K => f.map h) ..) fun _ => rfl
  refine bind_hom _ (rd_map ..) fun last => ?_
  exact bind_hom _ (factorizeBlocks_hom hh hreg last (.matrix input.linkPrev) (.matrix input.linkDiag) ..)
    fun r => rfl

theorem ArrowheadFactor.factorizeOuter_hom (dimTridiag dimLink dimOuter : Nat) (f : ArrowheadFactor K)
    (input : ArrowheadMatrix K) (method : Method) :
    (f.map h).factorizeOuter dimTridiag dimLink dimOuter (input.map h) reg' method =
      (do return (← f.factorizeOuter dimTridiag dimLink dimOuter input reg method).map h) := by
  unfold ArrowheadFactor.factorizeOuter
  have hn : (f.map h).numRepetitions = f.numRepetitions := List.length_map ..
  rw [hn]
  refine bind_hom _ (fillWithOriginalMatrixValuesIncludingDiagonal_hom hh ..) fun outerDiag => ?_
  refine bind_hom _ (rd_map ..) fun a0 => bind_hom _ (rd_map ..) fun d0 => ?_
  refine bind_hom _ (factorizePartialUpLooking_hom hh _ _ (.matrix input.startOuter) (.matrix a0)
    (.none dimOuter dimOuter) ..) fun r => ?_
  refine bind_hom _ (wr_map (fun f : SubFactor K => f.map h) ..) fun outerSubdiag => ?_
  refine bind_hom (Prod.map (List.map (fun f : SubFactor K => f.map h)) (fun f : DiagFactor K => f.map h))
    (foldlM_hom (Prod.map (List.map (fun f : SubFactor K => f.map h)) (fun f : DiagFactor K => f.map h)) _ _ (fun st i => ?_) _ (outerSubdiag, r.2.2)) fun st => ?_
  · refine bind_hom _ (rd_map ..) fun f11 => bind_hom _ (rd_map ..) fun f21 => bind_hom _ (rd_map ..) fun b => ?_
    refine bind_hom _ (rd_map ..) fun f31 => bind_hom _ (rd_map ..) fun f32 => ?_
    refine bind_hom _ (factorizePartialUpLooking_hom hh f11 f21 (.none dimOuter dimTridiag) (.matrix b)
      (.none dimOuter dimOuter) ..) fun r => ?_
    refine bind_hom _ (wr_map (fun f : SubFactor K => f.map h) ..) fun _ => ?_
    exact bind_hom _ (wr_map (fun f : SubFactor K => f.map h) ..) fun _ => rfl
  refine bind_hom _ (rd_map ..) fun f11 => bind_hom _ (rd_map ..) fun f31 => ?_
  refine bind_hom _ (factorizePartialUpLooking_hom hh f11 f.linkPrev (.none dimOuter dimTridiag)
    (.matrix input.linkNext) (.none dimOuter dimOuter) ..) fun r => ?_
  refine bind_hom _ (wr_map (fun f : SubFactor K => f.map h) ..) fun _ => ?_
  exact bind_hom _ (factorizeBlocks_hom hh hreg f.linkDiag (.none dimOuter dimLink) (.none dimOuter dimOuter) ..)
    fun r => rfl

theorem ArrowheadFactor.factorize_hom (dimTridiag dimLink dimOuter : Nat) (f : ArrowheadFactor K)
    (input : ArrowheadMatrix K) (method : Method) :
    (f.map h).factorize dimTridiag dimLink dimOuter (input.map h) reg' method =
      (do return (← f.factorize dimTridiag dimLink dimOuter input reg method).map h) :=
  bind_hom _ (ArrowheadFactor.factorizeInner_hom hh hreg ..)
    fun _ => ArrowheadFactor.factorizeOuter_hom hh hreg ..

theorem tridiagonalFactorize_hom (dim : Nat) (base : ArrowheadFactor K) (valuesA valuesB : List (MatIn K))
    (method : Method) :
    tridiagonalFactorize dim (base.map h) (valuesA.map (·.map h)) (valuesB.map (·.map h)) reg' method =
      (do return (← tridiagonalFactorize dim base valuesA valuesB reg method).map h) := by
  unfold tridiagonalFactorize
  rw [← ArrowheadFactor.factorize_hom hh hreg]
  congr 1
  have hn : (base.map h).numRepetitions = base.numRepetitions := List.length_map ..
  simp only [tridiagonalMatrix, ArrowheadMatrix.map, hn, List.map_replicate]
  rfl

/-! ## Solving -/

omit hreg

theorem solveForwardSubstitutionRow_hom (i : Nat) (fact : SubFactor K) (solution : List K) (init : K) :
    solveForwardSubstitutionRow i (fact.map h) (solution.map h) (h init) =
      (do return h (← solveForwardSubstitutionRow i fact solution init)) := by
  refine bind_hom_same fun _ => bind_hom_same fun _ => bind_hom_same fun _ => ?_
  refine foldlM_hom h _ _ (fun b a => ?_) _ _
  simp only [SubFactor.map, rd_map, bind_assoc, pure_bind, hh.sub, hh.mul]

theorem solveForwardSubstitution_hom (fact : SubFactor K) (solution partialSolution : List K) :
    solveForwardSubstitution (fact.map h) (solution.map h) (partialSolution.map h) =
      (do return (← solveForwardSubstitution fact solution partialSolution).map h) := by
  refine foldlM_hom (List.map h) _ _ (fun b a => ?_) _ _
  refine bind_hom_same fun _ => bind_hom h (rd_map ..) fun _ => ?_
  exact bind_hom h (solveForwardSubstitutionRow_hom hh ..) fun _ => wr_map ..

theorem solveForwardSubstitutionInPlace_hom (diag : DiagFactor K) (rhs : List K) :
    solveForwardSubstitutionInPlace (diag.map h) (rhs.map h) =
      (do return (← solveForwardSubstitutionInPlace diag rhs).map h) := by
  refine foldlM_hom (List.map h) _ _ (fun b a => ?_) _ _
  refine bind_hom_same fun _ => bind_hom h (rd_map ..) fun _ => ?_
  exact bind_hom h (solveForwardSubstitutionRow_hom hh _ diag.toBlock ..) fun _ => wr_map ..

theorem solveForwardSubstitutionLeft_hom (diag : DiagFactor K) (rhs : List K) (left : SubFactor K)
    (solutionLeft : List K) :
    solveForwardSubstitutionLeft (diag.map h) (rhs.map h) (left.map h) (solutionLeft.map h) =
      (do return (← solveForwardSubstitutionLeft diag rhs left solutionLeft).map h) := by
  refine bind_hom_same fun _ => bind_hom_same fun _ => foldlM_hom (List.map h) _ _ (fun b a => ?_) _ _
  refine bind_hom_same fun _ => bind_hom h (rd_map ..) fun _ => ?_
  refine bind_hom h (solveForwardSubstitutionRow_hom hh ..) fun _ => ?_
  exact bind_hom h (solveForwardSubstitutionRow_hom hh _ diag.toBlock ..) fun _ => wr_map ..

theorem solveBackwardSubstitutionRow_hom (i : Nat) (fact : SubFactor K) (solutionI : K) (partialSolution : List K) :
    solveBackwardSubstitutionRow i (fact.map h) (h solutionI) (partialSolution.map h) =
      (do return (← solveBackwardSubstitutionRow i fact solutionI partialSolution).map h) := by
  refine bind_hom_same fun _ => bind_hom_same fun _ => bind_hom_same fun _ => ?_
  refine foldlM_hom (List.map h) _ _ (fun b a => ?_) _ _
  simp only [SubFactor.map, rd_map, bind_assoc, pure_bind, ← hh.sub, ← hh.mul, wr_map]

theorem solveBackwardSubstitution_hom (fact : SubFactor K) (solution partialSolution : List K) :
    solveBackwardSubstitution (fact.map h) (solution.map h) (partialSolution.map h) =
      (do return (← solveBackwardSubstitution fact solution partialSolution).map h) := by
  refine foldlM_hom (List.map h) _ _ (fun b a => ?_) _ _
  exact bind_hom_same fun _ => bind_hom h (rd_map ..) fun _ => solveBackwardSubstitutionRow_hom hh ..

theorem solveBackwardSubstitutionInPlace_hom (diag : DiagFactor K) (rhs : List K) :
    solveBackwardSubstitutionInPlace (diag.map h) (rhs.map h) =
      (do return (← solveBackwardSubstitutionInPlace diag rhs).map h) := by
  refine foldlM_hom (List.map h) _ _ (fun b a => ?_) _ _
  exact bind_hom_same fun _ => bind_hom h (rd_map ..) fun _ => solveBackwardSubstitutionRow_hom hh _ diag.toBlock ..

theorem DiagFactor.diagonalSolve_hom (f : DiagFactor K) (rhs : List K) :
    (f.map h).diagonalSolve (rhs.map h) = (do return (← f.diagonalSolve rhs).map h) := by
  refine foldlM_hom (List.map h) _ _ (fun b a => ?_) _ _
  refine bind_hom_same fun _ => bind_hom h (rd_map ..) fun _ => bind_hom h (rd_map ..) fun _ => ?_
  rw [← hh.div]
  exact wr_map ..

theorem DiagFactor.solveInPlace_hom (f : DiagFactor K) (rhs : List K) :
    (f.map h).solveInPlace (rhs.map h) = (do return (← f.solveInPlace rhs).map h) :=
  bind_hom _ (solveForwardSubstitutionInPlace_hom hh ..) fun _ => bind_hom _ (DiagFactor.diagonalSolve_hom hh ..)
    fun _ => solveBackwardSubstitutionInPlace_hom hh ..

theorem ArrowheadFactor.forwardSolve_hom (f : ArrowheadFactor K) (rhs : ArrowheadVector K) :
    (f.map h).forwardSolve (rhs.map h) = (do return (← f.forwardSolve rhs).map h) := by
  unfold ArrowheadFactor.forwardSolve
  have hn : (f.map h).numRepetitions = f.numRepetitions := List.length_map ..
  rw [hn, ArrowheadFactor.checkInvariant_map]
  refine bind_hom_same fun _ => bind_hom _ (solveForwardSubstitutionInPlace_hom hh ..) fun start => ?_
  refine bind_hom _ (rd_map ..) fun _ => bind_hom _ (rd_map ..) fun _ => ?_
  refine bind_hom _ (solveForwardSubstitutionLeft_hom hh ..) fun _ => bind_hom _ (wr_map (List.map h) ..) fun _ => ?_
  refine bind_hom (List.map (List.map h)) (foldlM_hom (List.map (List.map h)) _ _ (fun b a => ?_) _ _) fun tridiag => ?_
  · refine bind_hom _ (rd_map ..) fun _ => bind_hom _ (rd_map ..) fun _ => bind_hom _ (rd_map ..) fun _ => ?_
    refine bind_hom _ (rd_map ..) fun _ => bind_hom _ (solveForwardSubstitutionLeft_hom hh ..) fun _ => ?_
    exact wr_map (List.map h) ..
  refine bind_hom _ (rd_map ..) fun _ => bind_hom _ (solveForwardSubstitutionLeft_hom hh ..) fun link => ?_
  refine bind_hom _ (solveForwardSubstitution_hom hh ..) fun outer => ?_
  refine bind_hom (List.map h) (foldlM_hom (List.map h) _ _ (fun b a => ?_) _ _) fun outer => ?_
  · refine bind_hom _ (rd_map ..) fun _ => bind_hom _ (rd_map ..) fun _ => ?_
    exact solveForwardSubstitution_hom hh ..
  refine bind_hom _ (solveForwardSubstitution_hom hh ..) fun outer => ?_
  exact bind_hom _ (solveForwardSubstitutionInPlace_hom hh ..) fun outer => rfl

theorem ArrowheadFactor.diagonalSolve_hom (f : ArrowheadFactor K) (rhs : ArrowheadVector K) :
    (f.map h).diagonalSolve (rhs.map h) = (do return (← f.diagonalSolve rhs).map h) := by
  unfold ArrowheadFactor.diagonalSolve
  have hn : (f.map h).numRepetitions = f.numRepetitions := List.length_map ..
  rw [hn, ArrowheadFactor.checkInvariant_map]
  refine bind_hom_same fun _ => bind_hom _ (DiagFactor.diagonalSolve_hom hh ..) fun start => ?_
  refine bind_hom (List.map (List.map h)) (foldlM_hom (List.map (List.map h)) _ _ (fun b a => ?_) _ _) fun tridiag => ?_
  · refine bind_hom _ (rd_map ..) fun _ => bind_hom _ (rd_map ..) fun _ => ?_
    exact bind_hom _ (DiagFactor.diagonalSolve_hom hh ..) fun _ => wr_map (List.map h) ..
  refine bind_hom _ (DiagFactor.diagonalSolve_hom hh ..) fun link => ?_
  exact bind_hom _ (DiagFactor.diagonalSolve_hom hh ..) fun outer => rfl

theorem ArrowheadFactor.backwardSolve_hom (f : ArrowheadFactor K) (rhs : ArrowheadVector K) :
    (f.map h).backwardSolve (rhs.map h) = (do return (← f.backwardSolve rhs).map h) := by
  unfold ArrowheadFactor.backwardSolve
  have hn : (f.map h).numRepetitions = f.numRepetitions := List.length_map ..
  rw [hn, ArrowheadFactor.checkInvariant_map]
  refine bind_hom_same fun _ => bind_hom _ (solveBackwardSubstitutionInPlace_hom hh ..) fun outer => ?_
  refine bind_hom _ (solveBackwardSubstitution_hom hh ..) fun _ => ?_
  refine bind_hom _ (solveBackwardSubstitutionInPlace_hom hh ..) fun link => ?_
  refine bind_hom _ (rd_map ..) fun _ => bind_hom _ (rd_map ..) fun _ => ?_
  refine bind_hom _ (solveBackwardSubstitution_hom hh ..) fun _ => ?_
  refine bind_hom _ (solveBackwardSubstitution_hom hh ..) fun _ => bind_hom _ (rd_map ..) fun _ => ?_
  refine bind_hom _ (solveBackwardSubstitutionInPlace_hom hh ..) fun _ => ?_
  refine bind_hom _ (wr_map (List.map h) ..) fun _ => ?_
  refine bind_hom (List.map (List.map h)) (foldlM_hom (List.map (List.map h)) _ _ (fun b a => ?_) _ _) fun tridiag => ?_
  · refine bind_hom _ (rd_map ..) fun _ => bind_hom _ (rd_map ..) fun _ => ?_
    refine bind_hom _ (solveBackwardSubstitution_hom hh ..) fun _ => ?_
    refine bind_hom _ (rd_map ..) fun _ => bind_hom _ (rd_map ..) fun _ => ?_
    refine bind_hom _ (solveBackwardSubstitution_hom hh ..) fun _ => bind_hom _ (rd_map ..) fun _ => ?_
    exact bind_hom _ (solveBackwardSubstitutionInPlace_hom hh ..) fun _ => wr_map (List.map h) ..
  refine bind_hom _ (solveBackwardSubstitution_hom hh ..) fun _ => bind_hom _ (rd_map ..) fun _ => ?_
  refine bind_hom _ (solveBackwardSubstitution_hom hh ..) fun _ => ?_
  exact bind_hom _ (solveBackwardSubstitutionInPlace_hom hh ..) fun _ => rfl

theorem ArrowheadFactor.solveInPlace_hom (f : ArrowheadFactor K) (rhs : ArrowheadVector K) :
    (f.map h).solveInPlace (rhs.map h) = (do return (← f.solveInPlace rhs).map h) :=
  bind_hom _ (ArrowheadFactor.forwardSolve_hom hh ..) fun _ => bind_hom _ (ArrowheadFactor.diagonalSolve_hom hh ..)
    fun _ => ArrowheadFactor.backwardSolve_hom hh ..

theorem tridiagonalSolveInPlace_hom (base : ArrowheadFactor K) (rhs : List (List K)) :
    tridiagonalSolveInPlace (base.map h) (rhs.map (List.map h)) =
      (do return (← tridiagonalSolveInPlace base rhs).map (List.map h)) :=
  bind_hom _ (ArrowheadFactor.solveInPlace_hom hh base ⟨[], rhs, [], []⟩) fun _ => rfl

end Ctldl
