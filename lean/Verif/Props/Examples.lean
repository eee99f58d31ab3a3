import Verif.Lemmas.AnyAddition
import Verif.Lemmas.QuasiDefUnique
import Verif.Props.MtxDescribed
import Verif.Props.EndToEnd
import Verif.Props.Definite
import Verif.Spec.Examples

/-! # C66: the example programs which read a file, factorize and solve -/

namespace Ctldl

open Finset

variable {K : Type}

/-! ### The structures -/

/-- C66: the structures which the programs are compiled with are constructed without violation of a precondition, their
patterns and permutations fit together, and there is something to repeat. -/
theorem C66_structures (e : MtxExample) :
    ∃ s, e.sparsity = .ok s ∧ s.Valid e.dims ∧ 0 < e.dims.tridiag ∧ ∃ T, arrowheadTypes s = .ok T := by
  have key : ∀ {s : ArrowheadSparsity} {d : Dims}, s.Valid d → 0 < d.tridiag →
      s.Valid d ∧ 0 < d.tridiag ∧ ∃ T, arrowheadTypes s = .ok T :=
    fun h1 h2 => ⟨h1, h2, C21_instantiable _ _ h1⟩
  cases e
  all_goals refine ⟨_, rfl, key ?_ (by decide)⟩
  all_goals decide +kernel

/-! ### Reading for any arithmetic -/

/-- What is known for all lines after reading. -/
theorem read_outcome [i : Zero K] {s : ArrowheadSparsity} {d : Dims} (hs : s.Valid d) (hd : 0 < d.tridiag)
    {T : ArrowheadTypes} (hT : arrowheadTypes s = .ok T) (scanner : Scanner K) (lines : List String)
    (hl : ∀ line ∈ lines, (∃ o, scanner.header line = .ok o) ∧ ∃ o, scanner.entry line = .ok o)
    (m : MtxArrowhead K) (hm : mtxFileRead scanner s lines = .ok m) :
    ∃ N dims entries, IsMtxFile scanner lines dims entries ∧ dims.numRows = d.total N ∧ dims.numCols = d.total N ∧
      m.toMatrix.Fits s T d N ∧ m.tridiagSubdiag.length = N := by
  refine with_addition (K := K) fun j hj => ?_
  subst hj
  obtain ⟨N, dims, entries, h1, h2, h3, -, -, h4⟩ := C65_succeeds s d hs hd scanner lines hl m hm
  refine ⟨N, dims, entries, h1, h2, h3, isFile_fits hs hT h4, ?_⟩
  have := h4.numSubdiag
  simpa [MtxArrowhead.toMatrix] using this

/-! ### The program -/

theorem rhs_ofSize [One K] (d : Dims) (N : Nat) :
    (exampleMtxRhs d.start d.tridiag d.link d.outer N : ArrowheadVector K).OfSize d N := by
  refine ⟨by simp [exampleMtxRhs], by simp [exampleMtxRhs], fun b hb => ?_, by simp [exampleMtxRhs],
    by simp [exampleMtxRhs]⟩
  simp only [exampleMtxRhs] at hb
  rw [List.eq_of_mem_replicate hb, List.length_replicate]

private theorem rhs_at [Zero K] [One K] (d : Dims) (N : Nat) {a : Blk} (ha : a ∈ blocks N) {i : Nat} (hi : i < d.of a) :
    (exampleMtxRhs d.start d.tridiag d.link d.outer N : ArrowheadVector K).at a i = 1 := by
  have h : ∀ {α : Type} (n i : Nat) (x y : α), i < n → (List.replicate n x).getD i y = x := by
    intro α n i x y hi
    rw [List.getD_eq_getElem _ _ (by simpa using hi)]
    simp
  cases a with
  | start => exact h _ _ _ _ hi
  | tridiag t =>
    have := mem_blocks_tridiag.mp ha
    simp only [ArrowheadVector.at, exampleMtxRhs, blockAt]
    rw [h _ _ _ _ (by omega)]
    exact h _ _ _ _ hi
  | link => exact h _ _ _ _ hi
  | outer => exact h _ _ _ _ hi

/-- The loop, if it is run at least once. -/
private theorem loop_eq [Zero K] [One K] [Sub K] [Mul K] [Div K] {s : ArrowheadSparsity} {d : Dims} (hs : s.Valid d)
    {T : ArrowheadTypes} {N : Nat} {f f' : ArrowheadFactor K} (hf : f.Declared s T d N) {m : ArrowheadMatrix K}
    (hm : m.Fits s T d N) {reg : K → Nat → K} {method : Method} {rhs x : ArrowheadVector K}
    (h1 : f.factorize d.tridiag d.link d.outer m reg method = .ok f') (h2 : f'.solveInPlace rhs = .ok x)
    (hf' : f'.Declared s T d N) (n : Nat) (y : ArrowheadVector K) :
    (List.range (n + 1)).foldlM (fun state _ => do
      exampleMtxIteration (← s.dimTridiag) (← s.dimLink) (← s.dimOuter) m reg method rhs state) (f, y) =
      .ok (f', x) := by
  have key := foldlM_inv (f := fun (state : ArrowheadFactor K × ArrowheadVector K) (_ : Nat) => (do
      exampleMtxIteration (← s.dimTridiag) (← s.dimLink) (← s.dimOuter) m reg method rhs state : Res _))
    (l := List.range (n + 1)) (init := (f, y))
    (fun pre st => st.1.Declared s T d N ∧ (pre ≠ [] → st = (f', x))) ⟨hf, fun h => absurd rfl h⟩ (by
      intro pre a suf st _ hI
      refine ⟨(f', x), ?_, hf', fun _ => rfl⟩
      rw [valid_dimTridiag hs, valid_dimLink hs, valid_dimOuter hs]
      simp only [ok_bind]
      unfold exampleMtxIteration
      rw [C26_repeating_history_independent s d hs T N st.1 f hI.1 hf m hm reg method, h1]
      simp only [ok_bind]
      rw [h2]
      rfl)
  obtain ⟨st, h3, -, h4⟩ := key
  rw [h3, h4 (by simp)]

/-- The program, if the file can be read and the loop is run at least once. -/
theorem exampleMtx_eq [Zero K] [One K] [Sub K] [Mul K] [Div K] {s : ArrowheadSparsity} {d : Dims} (hs : s.Valid d)
    {T : ArrowheadTypes} {convert : FloatLiteral → K} {construct : Nat → ArrowheadFactor K} {text : List Char}
    {m : MtxArrowhead K} (hread : mtxTextRead convert s text = .ok m)
    (hcon : (construct m.tridiagSubdiag.length).Declared s T d m.tridiagSubdiag.length)
    (hm : m.toMatrix.Fits s T d m.tridiagSubdiag.length) (reg : K → Nat → K) (method : Method) (n : Nat) :
    ∃ f' x, (construct m.tridiagSubdiag.length).factorize d.tridiag d.link d.outer m.toMatrix reg method = .ok f' ∧
      f'.solveInPlace (exampleMtxRhs d.start d.tridiag d.link d.outer m.tridiagSubdiag.length) = .ok x ∧
      x.OfSize d m.tridiagSubdiag.length ∧
      exampleMtx convert construct reg method s text (n + 1) =
        .ok (exampleMtxOutput d.start d.link d.outer x) := by
  obtain ⟨f', h1, h2, h3⟩ := C25_repeating_total s d hs T _ _ hcon m.toMatrix hm reg method
  obtain ⟨x, h4, h5⟩ := h3 _ (rhs_ofSize d m.tridiagSubdiag.length)
  refine ⟨f', x, h1, h4, h5, ?_⟩
  unfold exampleMtx
  rw [hread]
  simp only [ok_bind]
  rw [valid_dimStart hs, valid_dimTridiag hs, valid_dimLink hs, valid_dimOuter hs]
  simp only [ok_bind]
  have := loop_eq hs hcon hm h1 h4 h2 n (exampleMtxRhs d.start d.tridiag d.link d.outer m.tridiagSubdiag.length)
  rw [valid_dimTridiag hs, valid_dimLink hs, valid_dimOuter hs] at this
  simp only [ok_bind] at this
  rw [this]
  rfl

theorem printed_output (d : Dims) (N : Nat) {x : ArrowheadVector K} (hx : x.OfSize d N) :
    printedNumbers (exampleMtxOutput d.start d.link d.outer x) = x.flat := by
  have h1 : ∀ l : List K, printedNumbers (l.map .number) = l := by
    intro l
    induction l with
    | nil => rfl
    | cons a l ih => simpa [printedNumbers] using ih
  have h2 : ∀ a b : List (OutputLine K), printedNumbers (a ++ b) = printedNumbers a ++ printedNumbers b := by
    intro a b
    simp [printedNumbers]
  have h3 : ∀ l : List (List K), printedNumbers (l.map fun b => b.map OutputLine.number).flatten = l.flatten := by
    intro l
    induction l with
    | nil => rfl
    | cons a l ih => rw [List.map_cons, List.flatten_cons, h2, h1, ih, List.flatten_cons]
  have h4 : ∀ (text : String) (l : List (OutputLine K)), printedNumbers (.heading text :: l) = printedNumbers l :=
    fun _ _ => rfl
  have h5 : ∀ (k : Nat) (text : String) (l : List K), l.length = k →
      printedNumbers (if k > 0 then .heading text :: l.map .number else []) = l := by
    intro k text l hk
    split
    · rw [h4, h1]
    · have : l = [] := List.eq_nil_of_length_eq_zero (by omega)
      rw [this]; rfl
  unfold exampleMtxOutput ArrowheadVector.flat
  rw [h2, h2, h2, h4, h3, h5 _ _ _ hx.start, h5 _ _ _ hx.link, h5 _ _ _ hx.outer]

/-- C66: for any arithmetic, whatever is in the file as long as it has no integers of `2 ^ 64` and more, if reading succeeds
then the program succeeds and prints as many numbers as the file announces rows, and otherwise it fails as reading
does. -/
theorem C66_runs [Zero K] [One K] [Sub K] [Mul K] [Div K] (s : ArrowheadSparsity) (d : Dims) (hs : s.Valid d)
    (hd : 0 < d.tridiag) (T : ArrowheadTypes) (hT : arrowheadTypes s = .ok T) (convert : FloatLiteral → K)
    (construct : Nat → ArrowheadFactor K) (hcon : ∀ N, (construct N).Declared s T d N) (reg : K → Nat → K)
    (method : Method) (text : List Char)
    (h : ∀ before t rest negative n, text = before ++ t ++ rest → SpellsInteger t negative n → n < 2 ^ 64)
    (iterations : Nat) :
    (∀ m, mtxTextRead convert s text = .ok m → ∃ dims entries output,
      IsMtxFile (textScanner convert) ((getLines [] text).map String.ofList) dims entries ∧
      exampleMtx convert construct reg method s text iterations = .ok output ∧
      (printedNumbers output).length = dims.numRows) ∧
    ∀ e, mtxTextRead convert s text = .error e → exampleMtx convert construct reg method s text iterations = .error e := by
  refine ⟨fun m hm => ?_, fun e he => ?_⟩
  · obtain ⟨N, dims, entries, h1, h2, -, h3, rfl⟩ := read_outcome hs hd hT (textScanner convert) _
      (C64_scans convert text h) m hm
    cases iterations with
    | zero =>
      refine ⟨dims, entries, exampleMtxOutput d.start d.link d.outer
        (exampleMtxRhs d.start d.tridiag d.link d.outer m.tridiagSubdiag.length), h1, ?_, ?_⟩
      · unfold exampleMtx
        rw [hm]
        simp only [ok_bind]
        rw [valid_dimStart hs, valid_dimTridiag hs, valid_dimLink hs, valid_dimOuter hs]
        rfl
      · rw [printed_output d _ (rhs_ofSize d _), flat_length (rhs_ofSize d _), h2]
    | succ n =>
      obtain ⟨f', x, -, -, h4, h5⟩ := exampleMtx_eq hs hm (hcon _) h3 reg method n
      exact ⟨dims, entries, _, h1, h5, by rw [printed_output d _ h4, flat_length h4, h2]⟩
  · unfold exampleMtx
    rw [he]
    rfl

/-- C66: the four programs without start print a vector or fail with an exception for every text without integers of
`2 ^ 64` and more; their behaviour is defined. -/
theorem C66_programs [i : Zero K] [One K] [Sub K] [Mul K] [Div K] (e : MtxExample) (he : e.dims.start = 0) :
    ∃ s T, e.sparsity = .ok s ∧ arrowheadTypes s = .ok T ∧
      ∀ (convert : FloatLiteral → K) (construct : Nat → ArrowheadFactor K),
        (∀ N, (construct N).Declared s T e.dims N) → ∀ (reg : K → Nat → K) (method : Method) (text : List Char),
        (∀ before t rest negative n, text = before ++ t ++ rest → SpellsInteger t negative n → n < 2 ^ 64) →
        ∀ iterations,
          (∃ output, exampleMtx convert construct reg method s text iterations = .ok output) ∨
          ∃ kind : MtxErr, exampleMtx convert construct reg method s text iterations = .error (.mtx kind) := by
  obtain ⟨s, h1, hs, hd, T, hT⟩ := C66_structures e
  refine ⟨s, T, h1, hT, fun convert construct hcon reg method text h iterations => ?_⟩
  obtain ⟨h2, h3⟩ := C66_runs s e.dims hs hd T hT convert construct hcon reg method text h iterations
  have h4 : (∃ m, mtxTextRead convert s text = .ok m) ∨ ∃ kind : MtxErr, mtxTextRead convert s text = .error (.mtx kind) := by
    refine with_addition (K := K) fun j hj => ?_
    subst hj
    rcases C65_text convert s e.dims hs hd he text h with ⟨m, -, -, -, hm, -⟩ | hk
    · exact Or.inl ⟨m, hm⟩
    · exact Or.inr hk
  rcases h4 with ⟨m, hm⟩ | ⟨kind, hk⟩
  · obtain ⟨-, -, output, -, h5, -⟩ := h2 m hm
    exact Or.inl ⟨output, h5⟩
  · exact Or.inr ⟨kind, h3 _ hk⟩

example : MtxExample.mhdb416.dims.start = 0 ∧ MtxExample.nos2.dims.start = 0 ∧ MtxExample.nos4.dims.start = 0 ∧
    MtxExample.opal.dims.start = 0 := by decide

/-- C66: the number of iterations does not matter if it is not zero. -/
theorem C66_iterations [Zero K] [One K] [Sub K] [Mul K] [Div K] (s : ArrowheadSparsity) (d : Dims) (hs : s.Valid d)
    (hd : 0 < d.tridiag) (T : ArrowheadTypes) (hT : arrowheadTypes s = .ok T) (convert : FloatLiteral → K)
    (construct : Nat → ArrowheadFactor K) (hcon : ∀ N, (construct N).Declared s T d N) (reg : K → Nat → K)
    (method : Method) (text : List Char)
    (h : ∀ before t rest negative n, text = before ++ t ++ rest → SpellsInteger t negative n → n < 2 ^ 64)
    (k n : Nat) (hk : 0 < k) (hn : 0 < n) :
    exampleMtx convert construct reg method s text k = exampleMtx convert construct reg method s text n := by
  have key : ∀ k, 0 < k → exampleMtx convert construct reg method s text k =
      exampleMtx convert construct reg method s text 1 := by
    intro k hk
    cases hm : mtxTextRead convert s text with
    | error e =>
      obtain ⟨-, h1⟩ := C66_runs s d hs hd T hT convert construct hcon reg method text h k
      obtain ⟨-, h2⟩ := C66_runs s d hs hd T hT convert construct hcon reg method text h 1
      rw [h1 e hm, h2 e hm]
    | ok m =>
      obtain ⟨N, dims, entries, -, -, -, h3, rfl⟩ := read_outcome hs hd hT (textScanner convert) _
        (C64_scans convert text h) m hm
      obtain ⟨k, rfl⟩ := Nat.exists_eq_succ_of_ne_zero (by omega : k ≠ 0)
      obtain ⟨f', x, h4, h5, -, h6⟩ := exampleMtx_eq hs hm (hcon _) h3 reg method k
      obtain ⟨f'', x', h7, h8, -, h9⟩ := exampleMtx_eq hs hm (hcon _) h3 reg method 0
      rw [h4] at h7
      cases h7
      rw [h5] at h8
      cases h8
      exact h6.trans h9.symm
  rw [key k hk, key n hn]

/-- C66: neither do the numbers in the memory of the new object. -/
theorem C66_construct [Zero K] [One K] [Sub K] [Mul K] [Div K] (s : ArrowheadSparsity) (d : Dims) (hs : s.Valid d)
    (hd : 0 < d.tridiag) (T : ArrowheadTypes) (hT : arrowheadTypes s = .ok T) (convert : FloatLiteral → K)
    (construct construct' : Nat → ArrowheadFactor K) (hcon : ∀ N, (construct N).Declared s T d N)
    (hcon' : ∀ N, (construct' N).Declared s T d N) (reg : K → Nat → K) (method : Method) (text : List Char)
    (h : ∀ before t rest negative n, text = before ++ t ++ rest → SpellsInteger t negative n → n < 2 ^ 64) (n : Nat) :
    exampleMtx convert construct reg method s text n = exampleMtx convert construct' reg method s text n := by
  cases hm : mtxTextRead convert s text with
  | error e =>
    obtain ⟨-, h1⟩ := C66_runs s d hs hd T hT convert construct hcon reg method text h n
    obtain ⟨-, h2⟩ := C66_runs s d hs hd T hT convert construct' hcon' reg method text h n
    rw [h1 e hm, h2 e hm]
  | ok m =>
    obtain ⟨N, dims, entries, -, -, -, h3, rfl⟩ := read_outcome hs hd hT (textScanner convert) _
      (C64_scans convert text h) m hm
    cases n with
    | zero =>
      unfold exampleMtx
      rw [hm]
      simp only [ok_bind]
      rw [valid_dimStart hs, valid_dimTridiag hs, valid_dimLink hs, valid_dimOuter hs]
      rfl
    | succ n =>
      obtain ⟨f', x, h4, h5, -, h6⟩ := exampleMtx_eq hs hm (hcon _) h3 reg method n
      obtain ⟨f'', x', h7, h8, -, h9⟩ := exampleMtx_eq hs hm (hcon' _) h3 reg method n
      rw [C26_repeating_history_independent s d hs T _ _ _ (hcon' _) (hcon _) m.toMatrix h3 reg method, h4] at h7
      cases h7
      rw [h5] at h8
      cases h8
      exact h6.trans h9.symm

/-- C66: with zero iterations the program prints ones. -/
theorem C66_zero_iterations [Zero K] [One K] [Sub K] [Mul K] [Div K] (s : ArrowheadSparsity) (d : Dims) (hs : s.Valid d)
    (convert : FloatLiteral → K) (construct : Nat → ArrowheadFactor K) (reg : K → Nat → K) (method : Method)
    (text : List Char) (m : MtxArrowhead K) (hm : mtxTextRead convert s text = .ok m) :
    ∃ output, exampleMtx convert construct reg method s text 0 = .ok output ∧
      printedNumbers output = List.replicate (d.total m.tridiagSubdiag.length) 1 := by
  refine ⟨exampleMtxOutput d.start d.link d.outer
    (exampleMtxRhs d.start d.tridiag d.link d.outer m.tridiagSubdiag.length), ?_, ?_⟩
  · unfold exampleMtx
    rw [hm]
    simp only [ok_bind]
    rw [valid_dimStart hs, valid_dimTridiag hs, valid_dimLink hs, valid_dimOuter hs]
    rfl
  · rw [printed_output d _ (rhs_ofSize d _)]
    simp only [ArrowheadVector.flat, exampleMtxRhs, List.flatten_replicate_replicate, List.replicate_append_replicate,
      Dims.total]

/-! ### The solution -/

private theorem quasiDef_positions [Field K] [LinearOrder K] {d : Dims} (hd : 0 < d.tridiag) {N : Nat} {S : Nat → Prop}
    {μ : K} {A : Nat → Nat → K} {B : (Σ _ : Blk, Nat) → (Σ _ : Blk, Nat) → K}
    (hAB : ∀ x ∈ positions d N, ∀ y ∈ positions d N, B x y = A (d.before N x.1 + x.2) (d.before N y.1 + y.2))
    (h : QuasiDef (range (d.total N)) S μ A) :
    QuasiDef (positions d N) (fun x => S (d.before N x.1 + x.2)) μ B := by
  classical
  have hloc : ∀ x ∈ positions d N, d.Locates N (d.before N x.1 + x.2) x.1 x.2 := fun x hx =>
    ⟨(mem_positions.mp hx).1, (mem_positions.mp hx).2, rfl⟩
  have hsum : ∀ F : Nat → K, ∑ r ∈ range (d.total N), F r = ∑ x ∈ positions d N, F (d.before N x.1 + x.2) := by
    intro F
    rw [sum_total]
    unfold positions
    rw [sum_sigma]
  have key : ∀ x : (Σ _ : Blk, Nat) → K, ∃ y : Nat → K, (∀ p ∈ positions d N, y (d.before N p.1 + p.2) = x p) := by
    intro x
    refine ⟨fun r => if hr : ∃ p ∈ positions d N, d.before N p.1 + p.2 = r then x hr.choose else 0, fun p hp => ?_⟩
    have hr : ∃ q ∈ positions d N, d.before N q.1 + q.2 = d.before N p.1 + p.2 := ⟨p, hp, rfl⟩
    beta_reduce
    rw [dif_pos hr]
    have h1 := hloc _ hr.choose_spec.1
    rw [hr.choose_spec.2] at h1
    have h2 := h1.unique (hloc p hp)
    congr 1
    exact Sigma.ext h2.1 (heq_of_eq h2.2)
  have hquad : ∀ (x : (Σ _ : Blk, Nat) → K) (y : Nat → K), (∀ p ∈ positions d N, y (d.before N p.1 + p.2) = x p) →
      ∑ i ∈ positions d N, x i ^ 2 = ∑ r ∈ range (d.total N), y r ^ 2 ∧
      ∑ i ∈ positions d N, ∑ j ∈ positions d N, x i * B i j * x j =
        ∑ r ∈ range (d.total N), ∑ c ∈ range (d.total N), y r * A r c * y c := by
    intro x y hy
    rw [hsum, hsum]
    refine ⟨sum_congr rfl fun p hp => by rw [hy p hp], sum_congr rfl fun p hp => ?_⟩
    rw [hsum]
    exact sum_congr rfl fun q hq => by rw [hy p hp, hy q hq, hAB p hp q hq]
  have hpos : ∀ r < d.total N, ∃ p ∈ positions d N, r = d.before N p.1 + p.2 := by
    intro r hr
    obtain ⟨b, i, hl⟩ := locate hd hr
    exact ⟨⟨b, i⟩, mem_positions.mpr ⟨hl.block, hl.lt⟩, hl.eq⟩
  refine ⟨fun x hx hS => ?_, fun x hx hS => ?_⟩
  · obtain ⟨y, hy⟩ := key x
    obtain ⟨h1, h2⟩ := hquad x y hy
    rw [h1, h2]
    obtain ⟨p, hp, hne⟩ := hx
    refine h.1 y ⟨d.before N p.1 + p.2, mem_range.mpr (hloc p hp).lt_total, by rwa [hy p hp]⟩ fun r hr hn => ?_
    obtain ⟨q, hq, rfl⟩ := hpos r (mem_range.mp hr)
    rw [hy q hq]
    exact hS q hq hn
  · obtain ⟨y, hy⟩ := key x
    obtain ⟨h1, h2⟩ := hquad x y hy
    rw [h1, h2]
    obtain ⟨p, hp, hne⟩ := hx
    refine h.2 y ⟨d.before N p.1 + p.2, mem_range.mpr (hloc p hp).lt_total, by rwa [hy p hp]⟩ fun r hr hn => ?_
    obtain ⟨q, hq, rfl⟩ := hpos r (mem_range.mp hr)
    rw [hy q hq]
    exact hS q hq hn

/-- C66: in exact arithmetic, if the symmetric matrix of the file (with entries moved as C65 says) is quasi-definite with
a margin which is not less than the tolerance of the regularization, then the printed numbers are the solution of the
system of equations with this matrix and ones on the right-hand side, and there is no other solution. -/
theorem C66_solution [Field K] [LinearOrder K] [IsStrictOrderedRing K] (s : ArrowheadSparsity) (d : Dims)
    (hs : s.Valid d) (hd : 0 < d.tridiag) (T : ArrowheadTypes) (convert : FloatLiteral → K)
    (construct : Nat → ArrowheadFactor K) (hcon : ∀ N, (construct N).Declared s T d N) (tol c : K) (method : Method)
    (text : List Char) (dims : MtxDimensions) (entries : List (MtxEntry K))
    (hf : IsMtxFile (textScanner convert) ((getLines [] text).map String.ofList) dims entries) (N : Nat)
    (hrows : dims.numRows = d.total N) (hcols : dims.numCols = d.total N)
    (ho : ∀ e ∈ entries, ¬ d.Overruns N e.row e.col)
    (hc : ∀ e ∈ entries, s.Covers d N (d.movedRow N e.row e.col) e.col) (S : Nat → Prop) (μ : K) (hμ : 0 ≤ μ)
    (htol : tol ≤ μ)
    (hS : QuasiDef (range (d.total N)) S μ (fileSymmetric (entries.map (·.moved d N)))) (n : Nat) (hn : 0 < n) :
    ∃ output, exampleMtx convert construct (regularizationSmallPositiveConstant abs tol c) method s text n =
        .ok output ∧
      (printedNumbers output).length = d.total N ∧
      (∀ r < d.total N, ∑ k ∈ range (d.total N),
        fileSymmetric (entries.map (·.moved d N)) r k * (printedNumbers output).getD k 0 = 1) ∧
      ∀ y : Nat → K, (∀ r < d.total N,
        ∑ k ∈ range (d.total N), fileSymmetric (entries.map (·.moved d N)) r k * y k = 1) →
        ∀ r < d.total N, y r = (printedNumbers output).getD r 0 := by
  obtain ⟨m, hm, hi⟩ := C65_accepted s d hs hd (textScanner convert) _ dims entries hf N hrows hcols ho hc
  have hlen : m.tridiagSubdiag.length = N := by simpa [MtxArrowhead.toMatrix] using hi.numSubdiag
  have hfit := isFile_fits hs (hcon N).types hi
  have hc' : ∀ e ∈ entries.map (·.moved d N), s.Covers d N e.row e.col := by
    intro e he
    obtain ⟨e', he', rfl⟩ := List.mem_map.mp he
    exact hc e' he'
  have hq : QuasiDef (positions d N) (fun x => S (d.before N x.1 + x.2)) μ (m.toMatrix.assembled N) := by
    refine quasiDef_positions hd (fun x hx y hy => ?_) hS
    unfold ArrowheadMatrix.assembled
    exact symElement_file hs hi hc' ⟨(mem_positions.mp hx).1, (mem_positions.mp hx).2, rfl⟩
      ⟨(mem_positions.mp hy).1, (mem_positions.mp hy).2, rfl⟩
  have hreg : ∀ (x : K) (i : Nat), μ < |x| → regularizationSmallPositiveConstant abs tol c x i = x := by
    intro x i hx
    unfold regularizationSmallPositiveConstant
    rw [if_neg (not_lt.mpr (htol.trans hx.le))]
  obtain ⟨f', x, h1, h2, h3, h4⟩ := C48_repeating_solve s d hs T N _ (hcon N) m.toMatrix hfit _ μ hμ hq
    (regularizationSmallPositiveConstant abs tol c) hreg method
    (exampleMtxRhs d.start d.tridiag d.link d.outer N) (rhs_ofSize d N)
  obtain ⟨n, rfl⟩ := Nat.exists_eq_succ_of_ne_zero (by omega : n ≠ 0)
  subst hlen
  obtain ⟨f'', x', h5, h6, h7, h8⟩ := exampleMtx_eq hs hm (hcon _) hfit
    (regularizationSmallPositiveConstant abs tol c) method n
  rw [h1] at h5
  cases h5
  rw [h2] at h6
  cases h6
  have heqs : ∀ r < d.total m.tridiagSubdiag.length, ∑ k ∈ range (d.total m.tridiagSubdiag.length),
      fileSymmetric (entries.map (·.moved d m.tridiagSubdiag.length)) r k * x.flat.getD k 0 = 1 := by
    intro r hr
    obtain ⟨a, i, ha⟩ := locate hd hr
    rw [← rhs_at (K := K) d m.tridiagSubdiag.length ha.block ha.lt, ← h4 a ha.block i ha.lt, sum_total]
    refine sum_congr rfl fun b hb => sum_congr rfl fun j hj => ?_
    have hl : d.Locates m.tridiagSubdiag.length (d.before m.tridiagSubdiag.length b + j) b j :=
      ⟨hb, mem_range.mp hj, rfl⟩
    rw [symElement_file hs hi hc' ha hl, flat_at h7 hl]
  refine ⟨_, h8, by rw [printed_output d _ h7, flat_length h7], ?_, ?_⟩
  · rw [printed_output d _ h7]
    exact heqs
  · rw [printed_output d _ h7]
    intro y hy r hr
    have hsymm : ∀ i ∈ range (d.total m.tridiagSubdiag.length), ∀ j ∈ range (d.total m.tridiagSubdiag.length),
        fileSymmetric (entries.map (·.moved d m.tridiagSubdiag.length)) i j =
          fileSymmetric (entries.map (·.moved d m.tridiagSubdiag.length)) j i := by
      intro i _ j _
      unfold fileSymmetric
      rw [Nat.max_comm, Nat.min_comm]
    have := hS.injective hμ hsymm (z := fun k => y k - x.flat.getD k 0) (by
      intro i hi
      simp only [mul_sub, sum_sub_distrib]
      rw [hy i (mem_range.mp hi), heqs i (mem_range.mp hi), sub_self]) r (mem_range.mpr hr)
    exact sub_eq_zero.mp this

/-! ### Examples -/

/-- Texts with fewer than twenty digits have no integers of `2 ^ 64` and more. -/
theorem few_digits {text : List Char} (h : (text.filter Char.isDigit).length ≤ 19) :
    ∀ before t rest negative n, text = before ++ t ++ rest → SpellsInteger t negative n → n < 2 ^ 64 := by
  rintro before t rest negative n rfl ⟨sign, digits, ds, rfl, -, -, hd, rfl⟩
  have h1 : ∀ {digits ds}, Spells decimalAlphabet digits ds → (∀ c ∈ digits, c.isDigit = true) ∧
      (∀ d ∈ ds, d < 10) ∧ ds.length = digits.length := by
    intro digits ds hd
    induction hd with
    | nil => simp
    | cons hc _ ih =>
      rename_i c d _ _ _
      obtain ⟨a, ha, hd⟩ := hc
      rw [decimalAlphabet, List.mem_singleton] at ha
      subst ha
      have hlt : d < 10 := by
        have := (List.getElem?_eq_some_iff.mp hd).1
        simpa using this
      have hc : c.isDigit = true := by
        have : ∀ d < 10, ∀ c, ['0', '1', '2', '3', '4', '5', '6', '7', '8', '9'][d]? = some c → c.isDigit = true := by
          intro d hd c hc
          interval_cases d <;> cases hc <;> rfl
        exact this d hlt c hd
      refine ⟨fun x hx => ?_, fun x hx => ?_, by simp [ih.2.2]⟩
      · rcases List.mem_cons.mp hx with rfl | hx
        · exact hc
        · exact ih.1 x hx
      · rcases List.mem_cons.mp hx with rfl | hx
        · exact hlt
        · exact ih.2.1 x hx
  obtain ⟨h2, h3, h4⟩ := h1 hd
  have h5 := Nat.ofDigits_lt_base_pow_length (b := 10) (l := ds.reverse) (by decide) fun d hd => h3 d (by simpa using hd)
  have h6 : ds.length ≤ 19 := by
    rw [h4]
    simp only [List.filter_append, List.length_append, List.filter_eq_self.mpr h2] at h
    omega
  rw [List.length_reverse] at h5
  calc Nat.ofDigits 10 ds.reverse < 10 ^ ds.length := h5
    _ ≤ 10 ^ 19 := Nat.pow_le_pow_right (by decide) h6
    _ < 2 ^ 64 := by decide

/-- Conversion of the example. -/
def exampleConvert (x : FloatLiteral) : ℚ := x.toRat.getD 0

/-- The file is that of the matrix `[[2, 1], [1, 5]]`. -/
theorem textExample_file : IsMtxFile (textScanner exampleConvert) ((getLines [] textExample).map String.ofList) ⟨2, 2, 3⟩
    solveEntries := by
  refine ⟨["%%MatrixMarket"], "2 2 3\r", ["1 1 2.0", " 2\t1 .1e+1 x", "2 2 0x1.4p2"], by decide, ?_, ?_, by decide,
    by decide +kernel, ?_, rfl⟩
  · intro l hl
    rw [List.mem_singleton] at hl
    subst hl
    exact ⟨"%MatrixMarket".toList, by decide⟩
  · rintro ⟨r, hr⟩
    have : "2 2 3\r".toList = ['2', ' ', '2', ' ', '3', '\r'] := by decide
    rw [this] at hr
    cases hr
  · simp [solveEntries]

example : (do
    let T ← arrowheadTypes solveSparsity
    exampleMtx exampleConvert (fun N => freshFactor solveSparsity T ⟨0, 1, 0, 0⟩ N 17)
      (regularizationSmallPositiveConstant abs 1 1) .upLooking solveSparsity textExample 3 : Res _) =
    .ok [.heading "----- tridiag -----", .number (4 / 9), .number (1 / 9)] := by decide +kernel

/-- The theorems apply to this file. -/
example (iterations : Nat) (hn : 0 < iterations) : ∃ T output, arrowheadTypes solveSparsity = .ok T ∧
    exampleMtx exampleConvert (fun N => freshFactor solveSparsity T ⟨0, 1, 0, 0⟩ N 17)
      (regularizationSmallPositiveConstant abs 1 1) .upLooking solveSparsity textExample iterations = .ok output ∧
    (printedNumbers output).length = 2 := by
  have hs : solveSparsity.Valid ⟨0, 1, 0, 0⟩ := by decide
  obtain ⟨T, hT⟩ := C21_instantiable _ _ hs
  have hl : ∀ t ≤ 1, (⟨0, 1, 0, 0⟩ : Dims).Locates 1 t (.tridiag t) 0 := fun t ht =>
    ⟨mem_blocks_tridiag.mpr ht, by simp [Dims.of], by simp [Dims.before]⟩
  have hc : ∀ e ∈ solveEntries, solveSparsity.Covers ⟨0, 1, 0, 0⟩ 1
      ((⟨0, 1, 0, 0⟩ : Dims).movedRow 1 e.row e.col) e.col := by
    intro e he
    simp only [solveEntries, List.mem_cons, List.not_mem_nil, or_false] at he
    rcases he with rfl | rfl | rfl
    · exact ⟨by decide, _, _, _, _, hl 0 (by decide), hl 0 (by decide), .inl ⟨rfl, by unfold Sparsity.Has; decide⟩⟩
    · exact ⟨by decide, _, _, _, _, hl 1 (by decide), hl 0 (by decide), .inr ⟨_, rfl, by unfold Sparsity.Has; decide⟩⟩
    · exact ⟨by decide, _, _, _, _, hl 1 (by decide), hl 1 (by decide), .inl ⟨rfl, by unfold Sparsity.Has; decide⟩⟩
  have hmoved : solveEntries.map (·.moved ⟨0, 1, 0, 0⟩ 1) = solveEntries := rfl
  have hq : QuasiDef (range ((⟨0, 1, 0, 0⟩ : Dims).total 1)) (fun _ => True) (1 : ℚ)
      (fileSymmetric (solveEntries.map (·.moved ⟨0, 1, 0, 0⟩ 1))) := by
    rw [hmoved, show (⟨0, 1, 0, 0⟩ : Dims).total 1 = 2 from rfl]
    have e00 : fileSymmetric solveEntries 0 0 = 2 := rfl
    have e01 : fileSymmetric solveEntries 0 1 = 1 := rfl
    have e10 : fileSymmetric solveEntries 1 0 = 1 := rfl
    have e11 : fileSymmetric solveEntries 1 1 = 5 := rfl
    refine ⟨fun x hx _ => ?_, fun x hx h0 => ?_⟩
    · simp only [sum_range_succ, sum_range_zero, zero_add, e00, e01, e10, e11]
      have hne : x 0 + x 1 ≠ 0 ∨ x 1 ≠ 0 := by
        by_contra hn
        push Not at hn
        obtain ⟨i, hi, hne⟩ := hx
        have h0 : x 0 = 0 := by linarith [hn.1, hn.2]
        rw [mem_range] at hi
        interval_cases i
        · exact hne h0
        · exact hne hn.2
      rcases hne with h | h
      · have := pow_pos (abs_pos.mpr h) 2
        rw [sq_abs] at this
        nlinarith [sq_nonneg (x 1)]
      · have := pow_pos (abs_pos.mpr h) 2
        rw [sq_abs] at this
        nlinarith [sq_nonneg (x 0 + x 1)]
    · obtain ⟨i, hi, hne⟩ := hx
      exact absurd (h0 i hi trivial) hne
  obtain ⟨output, h1, h2, -, -⟩ := C66_solution solveSparsity ⟨0, 1, 0, 0⟩ hs (by decide) T exampleConvert
    (fun N => freshFactor solveSparsity T ⟨0, 1, 0, 0⟩ N 17) (fun N => C21_constructible _ _ _ hT N 17) 1 1 .upLooking
    textExample ⟨2, 2, 3⟩ solveEntries textExample_file 1 rfl rfl
    (fun e _ h => absurd h.1 (by simp)) hc (fun _ => True) 1 (by norm_num) (le_refl _) hq iterations hn
  -- the number of iterations does not matter, and the text has no large integers
  have h3 := C66_iterations solveSparsity ⟨0, 1, 0, 0⟩ hs (by decide) T hT exampleConvert
    (fun N => freshFactor solveSparsity T ⟨0, 1, 0, 0⟩ N 17) (fun N => C21_constructible _ _ _ hT N 17)
    (regularizationSmallPositiveConstant abs 1 1) .upLooking textExample (few_digits (by decide)) iterations 1 hn
    (by decide)
  exact ⟨T, output, hT, h1, h2⟩

end Ctldl
