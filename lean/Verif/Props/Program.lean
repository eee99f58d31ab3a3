import Verif.Model.Program
import Verif.Lemmas.Printed
import Verif.Props.Examples
import Verif.Props.Scan
import Verif.Model.Numeral
import Verif.Props.FixedExamples

/-! # C74: the example programs for matrix files, from the command line to the output -/

namespace Ctldl

variable {K : Type}

section

variable [Zero K] [One K] [Sub K] [Mul K] [Div K] (print : K → List Char) (convert : FloatLiteral → K)
  (construct : Nat → ArrowheadFactor K) (reg : K → Nat → K) (method : Method) (s : ArrowheadSparsity)
  (files : List Char → Option (List Char))

/-- C74: the program wants one or two arguments after its name. If and only if there are less or more of them, it explains
its usage and reports a failure, whatever the files are. -/
theorem C74_usage (arguments : List (List Char)) :
    ((∃ w, exampleMtxMain print convert construct reg method s files arguments = .exits false w) ↔
      arguments.length ≠ 2 ∧ arguments.length ≠ 3) ∧
    ∀ w, exampleMtxMain print convert construct reg method s files arguments = .exits false w →
      w = "Usage: example_* FILEPATH_MTX [NUM_ITERATIONS]\n\n".toList := by
  have hrun : ∀ path (n : Except Run Nat) w, (∀ w', n ≠ .error (.exits false w')) →
      exampleMtxMain.run print convert construct reg method s files path n ≠ .exits false w := by
    intro path n w hn h
    unfold exampleMtxMain.run at h
    split at h
    · next e => exact hn w (by rw [h])
    · split at h <;> cases h
  have hs : ∀ a w', stoull a ≠ .error (.exits false w') := by
    intro a w' h
    unfold stoull at h
    dsimp only at h
    split at h
    · cases h
    · split at h <;> cases h
  match arguments with
  | [_, path] =>
    have := fun w => hrun path (.ok 1) w (by intro w' h; cases h)
    refine ⟨⟨fun ⟨w, h⟩ => (this w h).elim, fun h => (h.1 rfl).elim⟩, fun w h => (this w h).elim⟩
  | [_, path, a] =>
    have := fun w => hrun path (stoull a) w (hs a)
    refine ⟨⟨fun ⟨w, h⟩ => (this w h).elim, fun h => (h.2 rfl).elim⟩, fun w h => (this w h).elim⟩
  | [] => exact ⟨⟨fun _ => ⟨by decide, by decide⟩, fun _ => ⟨_, rfl⟩⟩, fun w h => (Run.exits.inj h).2.symm⟩
  | [_] => exact ⟨⟨fun _ => ⟨by simp, by simp⟩, fun _ => ⟨_, rfl⟩⟩, fun w h => (Run.exits.inj h).2.symm⟩
  | _ :: _ :: _ :: _ :: _ => exact ⟨⟨fun _ => ⟨by simp, by simp⟩, fun _ => ⟨_, rfl⟩⟩, fun w h => (Run.exits.inj h).2.symm⟩

private theorem stoull_eq (a : List Char) : stoull a = match scanSize a with
    | .ok none => .error .invalidArgument
    | .ok (some (v, _)) => .ok v
    | .error _ => .error .outOfRange := by
  unfold stoull scanSize
  dsimp only
  split
  · rfl
  · split <;> rfl

/-- C74: a second argument which has no integer at its beginning (white space aside) ends the program with an exception,
before the file is looked at. -/
theorem C74_no_number (program path a : List Char)
    (h : ∀ b t rest negative n, a = b ++ t ++ rest → Blank b → ¬ SpellsInteger t negative n) :
    exampleMtxMain print convert construct reg method s files [program, path, a] = .invalidArgument := by
  have : stoull a = .error .invalidArgument := by
    rw [stoull_eq]
    rcases scanSize_cases a with e | ⟨b, t, rest, negative, n, e, hb, ht, -⟩
    · rw [e]
    · exact (h b t rest negative n e hb ht).elim
  simp only [exampleMtxMain, exampleMtxMain.run, this]

/-- C74: so does an integer which needs more than 64 bits. -/
theorem C74_large_number (program path b t rest : List Char) (hb : Blank b) (negative : Bool) (n : Nat)
    (ht : SpellsInteger t negative n) (hr : NoDigit decimalAlphabet rest) (hn : 2 ^ 64 ≤ n) :
    exampleMtxMain print convert construct reg method s files [program, path, b ++ t ++ rest] = .outOfRange := by
  have : stoull (b ++ t ++ rest) = .error .outOfRange := by
    rw [stoull_eq, scanSize_integer hb ht hr, if_neg (by omega)]
  simp only [exampleMtxMain, exampleMtxMain.run, this]

private theorem stoull_integer {b t rest : List Char} (hb : Blank b) {negative : Bool} {n : Nat}
    (ht : SpellsInteger t negative n) (hr : NoDigit decimalAlphabet rest) (hn : n < 2 ^ 64) :
    stoull (b ++ t ++ rest) = .ok (if negative then (2 ^ 64 - n) % 2 ^ 64 else n) := by
  rw [stoull_eq, scanSize_integer hb ht hr, if_pos hn]

omit [Zero K] [One K] [Sub K] [Mul K] [Div K] in
private theorem content_ok {files : List Char → Option (List Char)} (path : List Char)
    (hf : ∀ text, files path = some text → ∀ before t rest negative n, text = before ++ t ++ rest →
      SpellsInteger t negative n → n < 2 ^ 64) :
    ∀ before t rest negative n, fileContent files path = before ++ t ++ rest → SpellsInteger t negative n →
      n < 2 ^ 64 := by
  intro before t rest negative n e ht
  unfold fileContent at e
  cases hp : files path with
  | some text => exact hf text hp before t rest negative n (by rw [← e, hp]; rfl) ht
  | none =>
    rw [hp] at e
    obtain ⟨sign, digits, ds, rfl, -, hds, hsp, -⟩ := ht
    cases hsp with
    | nil => exact (hds rfl).elim
    | cons => simp at e

/-- C74: any other integer except zero has no effect on the output, whatever its sign and whatever follows it. (A negative
one is taken modulo 2 ^ 64, hence small ones ask for so many iterations that in practice the run does not end.) -/
theorem C74_number (d : Dims) (hs : s.Valid d) (hd : 0 < d.tridiag) (T : ArrowheadTypes) (hT : arrowheadTypes s = .ok T)
    (hcon : ∀ N, (construct N).Declared s T d N) (program path : List Char)
    (hf : ∀ text, files path = some text → ∀ before t rest negative n, text = before ++ t ++ rest →
      SpellsInteger t negative n → n < 2 ^ 64)
    (b t rest : List Char) (hb : Blank b) (negative : Bool) (n : Nat) (ht : SpellsInteger t negative n)
    (hr : NoDigit decimalAlphabet rest) (h0 : 0 < n) (hn : n < 2 ^ 64) :
    exampleMtxMain print convert construct reg method s files [program, path, b ++ t ++ rest] =
      exampleMtxMain print convert construct reg method s files [program, path] := by
  simp only [exampleMtxMain, exampleMtxMain.run, stoull_integer hb ht hr hn]
  rw [C66_iterations s d hs hd T hT convert construct hcon reg method _ (content_ok path hf) _ 1 _ one_pos]
  split
  · rw [Nat.mod_eq_of_lt (by omega)]
    omega
  · exact h0

/-- C74: a file which cannot be opened is reported like a file without a line for the sizes. -/
theorem C74_missing (program path : List Char) (h : files path = none) :
    exampleMtxMain print convert construct reg method s files [program, path] = .fails (.mtx .header) := by
  have : exampleMtx convert construct reg method s (fileContent files path) 1 = .error (.mtx .header) := by
    unfold fileContent
    rw [h]
    rfl
  simp only [exampleMtxMain, exampleMtxMain.run, this]

/-- C74: the example programs whose matrices have no start never have undefined behaviour, whatever the arguments are and
whatever the files contain, integers of more than 64 bits in the file excepted: they end with an output, with the usage,
with an exception for the number or with an error for the file. -/
theorem C74_defined (e : MtxExample) (he : e.dims.start = 0) : ∃ s T, e.sparsity = .ok s ∧ arrowheadTypes s = .ok T ∧
    ((∀ N, (construct N).Declared s T e.dims N) → ∀ arguments : List (List Char),
      (∀ path text, files path = some text → ∀ before t rest negative n, text = before ++ t ++ rest →
        SpellsInteger t negative n → n < 2 ^ 64) →
      (∃ success w, exampleMtxMain print convert construct reg method s files arguments = .exits success w) ∨
      exampleMtxMain print convert construct reg method s files arguments = .invalidArgument ∨
      exampleMtxMain print convert construct reg method s files arguments = .outOfRange ∨
      ∃ kind : MtxErr, exampleMtxMain print convert construct reg method s files arguments = .fails (.mtx kind)) := by
  obtain ⟨s, T, h1, h2, h3⟩ := C66_programs (K := K) e he
  refine ⟨s, T, h1, h2, fun hcon arguments hf => ?_⟩
  have hrun : ∀ path k, (∃ success w, exampleMtxMain.run print convert construct reg method s files path (.ok k) =
        .exits success w) ∨
      ∃ kind : MtxErr, exampleMtxMain.run print convert construct reg method s files path (.ok k) = .fails (.mtx kind) := by
    intro path k
    rcases h3 convert construct hcon reg method (fileContent files path) (content_ok path (hf path)) k with ⟨o, h⟩ | ⟨kind, h⟩
    · exact .inl ⟨true, writtenText print o, by simp only [exampleMtxMain.run, h]⟩
    · exact .inr ⟨kind, by simp only [exampleMtxMain.run, h]⟩
  match arguments with
  | [_, path] =>
    rcases hrun path 1 with h | h
    · exact .inl h
    · exact .inr (.inr (.inr h))
  | [_, path, a] =>
    simp only [exampleMtxMain]
    rw [stoull_eq]
    split
    · exact .inr (.inl rfl)
    · rcases hrun path _ with h | h
      · exact .inl h
      · exact .inr (.inr (.inr h))
    · exact .inr (.inr (.inl rfl))
  | [] => exact .inl ⟨_, _, rfl⟩
  | [_] => exact .inl ⟨_, _, rfl⟩
  | _ :: _ :: _ :: _ :: _ => exact .inl ⟨_, _, rfl⟩

end

/-- A heading of the output. -/
def IsHeading (line : List Char) : Prop := line.take 2 = ['-', '-']

instance (line : List Char) : Decidable (IsHeading line) := inferInstanceAs (Decidable (_ = _))

private theorem headings_of {dimStart dimLink dimOuter : Nat} {x : ArrowheadVector K} {text : String}
    (h : .heading text ∈ exampleMtxOutput dimStart dimLink dimOuter x) : '\n' ∉ text.toList ∧ IsHeading text.toList := by
  unfold exampleMtxOutput at h
  have key : text = "------ start ------" ∨ text = "----- tridiag -----" ∨ text = "------ link -------" ∨
      text = "------ outer ------" := by
    simp only [List.mem_append, List.mem_cons, List.mem_flatten, List.mem_map] at h
    rcases h with ((h | h | h) | h) | h
    · split at h
      · rcases List.mem_cons.mp h with h | h
        · exact .inl (OutputLine.heading.inj h)
        · obtain ⟨_, -, h⟩ := List.mem_map.mp h
          cases h
      · cases h
    · exact .inr (.inl (OutputLine.heading.inj h))
    · obtain ⟨_, ⟨_, -, rfl⟩, h⟩ := h
      obtain ⟨_, -, h⟩ := List.mem_map.mp h
      cases h
    · split at h
      · rcases List.mem_cons.mp h with h | h
        · exact .inr (.inr (.inl (OutputLine.heading.inj h)))
        · obtain ⟨_, -, h⟩ := List.mem_map.mp h
          cases h
      · cases h
    · split at h
      · rcases List.mem_cons.mp h with h | h
        · exact .inr (.inr (.inr (OutputLine.heading.inj h)))
        · obtain ⟨_, -, h⟩ := List.mem_map.mp h
          cases h
      · cases h
  rcases key with rfl | rfl | rfl | rfl <;> decide +kernel

private theorem written_lines (print : K → List Char) (hp : ∀ x, '\n' ∉ print x ∧ ¬ IsHeading (print x))
    (output : List (OutputLine K)) (ho : ∀ text, .heading text ∈ output → '\n' ∉ text.toList ∧ IsHeading text.toList) :
    (getLines [] (writtenText print output)).filter (fun line => ¬ IsHeading line) = (printedNumbers output).map print := by
  have h1 : getLines [] (writtenText print output) = output.map fun line => match line with
      | .heading text => text.toList
      | .number value => print value := by
    refine C64_lines _ _ ?_ (.inl ?_)
    · intro line hl
      obtain ⟨l, hl', rfl⟩ := List.mem_map.mp hl
      cases l with
      | heading text => exact (ho text hl').1
      | number value => exact (hp value).1
    · rw [List.map_map, writtenText]
      congr 1
      refine List.map_congr_left fun l _ => ?_
      cases l <;> rfl
  rw [h1]
  clear h1
  induction output with
  | nil => rfl
  | cons l output ih =>
    have ih := ih fun text h => ho text (List.mem_cons_of_mem _ h)
    cases l with
    | heading text =>
      rw [List.map_cons, List.filter_cons_of_neg (by simpa using (ho text (by simp)).2), ih]
      rfl
    | number value =>
      rw [List.map_cons, List.filter_cons_of_pos (by simpa using (hp value).2), ih]
      rfl

private theorem output_headings [Zero K] [One K] [Sub K] [Mul K] [Div K] {convert : FloatLiteral → K}
    {construct : Nat → ArrowheadFactor K} {reg : K → Nat → K} {method : Method} {s : ArrowheadSparsity}
    {text : List Char} {k : Nat} {output : List (OutputLine K)}
    (ho : exampleMtx convert construct reg method s text k = .ok output) :
    ∀ text, .heading text ∈ output → '\n' ∉ text.toList ∧ IsHeading text.toList := by
  unfold exampleMtx at ho
  simp only [bind_eq_ok] at ho
  obtain ⟨m, -, ds, -, dt, -, dl, -, dO, -, ⟨st, x⟩, -, ds', -, dl', -, dO', -, ho⟩ := ho
  rw [← Except.ok.inj ho]
  exact fun text h => headings_of h

/-- C74: of the lines written, those which are not headings are the numbers of the solution (in the order of the rows of the
matrix, C66), one in each line. -/
theorem C74_lines [Zero K] [One K] [Sub K] [Mul K] [Div K] (print : K → List Char)
    (hp : ∀ x, '\n' ∉ print x ∧ ¬ IsHeading (print x)) (convert : FloatLiteral → K) (construct : Nat → ArrowheadFactor K)
    (reg : K → Nat → K) (method : Method) (s : ArrowheadSparsity) (files : List Char → Option (List Char))
    (arguments : List (List Char)) (w : List Char)
    (h : exampleMtxMain print convert construct reg method s files arguments = .exits true w) :
    ∃ program path iterations output,
      (arguments = [program, path] ∧ iterations = 1 ∨ ∃ a, arguments = [program, path, a]) ∧
      exampleMtx convert construct reg method s ((files path).getD []) iterations = .ok output ∧
      (getLines [] w).filter (fun line => ¬ IsHeading line) = (printedNumbers output).map print := by
  have hrun : ∀ path n, exampleMtxMain.run print convert construct reg method s files path n = .exits true w →
      (∀ w', n ≠ .error (.exits true w')) → ∃ k output, n = .ok k ∧
        exampleMtx convert construct reg method s (fileContent files path) k = .ok output ∧
        (getLines [] w).filter (fun line => ¬ IsHeading line) = (printedNumbers output).map print := by
    intro path n h hn
    unfold exampleMtxMain.run at h
    split at h
    · exact (hn w (by rw [h])).elim
    · next k =>
      split at h
      · cases h
      · next output ho =>
        refine ⟨k, output, rfl, ho, ?_⟩
        rw [← (Run.exits.inj h).2]
        exact written_lines print hp output (output_headings ho)
  match arguments, h with
  | [program, path], h =>
    obtain ⟨k, output, hk, ho, hl⟩ := hrun path (.ok 1) h (by intro w' h; cases h)
    exact ⟨program, path, k, output, .inl ⟨rfl, (Except.ok.inj hk).symm⟩, ho, hl⟩
  | [program, path, a], h =>
    obtain ⟨k, output, -, ho, hl⟩ := hrun path (stoull a) h (by
      intro w' h
      rw [stoull_eq] at h
      split at h <;> cases h)
    exact ⟨program, path, k, output, .inr ⟨a, rfl⟩, ho, hl⟩
  | [], h => cases h
  | [_], h => cases h
  | _ :: _ :: _ :: _ :: _, h => cases h

/-- C74: with zero as second argument nothing is solved, and the number one is written for each row of the matrix. -/
theorem C74_zero [Zero K] [One K] [Sub K] [Mul K] [Div K] (print : K → List Char)
    (hp : ∀ x, '\n' ∉ print x ∧ ¬ IsHeading (print x)) (convert : FloatLiteral → K) (construct : Nat → ArrowheadFactor K)
    (reg : K → Nat → K) (method : Method) (s : ArrowheadSparsity) (d : Dims) (hs : s.Valid d)
    (files : List Char → Option (List Char)) (program path text b t rest : List Char) (hf : files path = some text)
    (m : MtxArrowhead K) (hm : mtxTextRead convert s text = .ok m) (hb : Blank b) (negative : Bool)
    (ht : SpellsInteger t negative 0) (hr : NoDigit decimalAlphabet rest) :
    ∃ w, exampleMtxMain print convert construct reg method s files [program, path, b ++ t ++ rest] = .exits true w ∧
      (getLines [] w).filter (fun line => ¬ IsHeading line) =
        List.replicate (d.total m.tridiagSubdiag.length) (print 1) := by
  obtain ⟨output, ho, hn⟩ := C66_zero_iterations s d hs convert construct reg method text m hm
  refine ⟨writtenText print output, ?_, ?_⟩
  · have : (if negative then (2 ^ 64 - 0) % 2 ^ 64 else 0) = 0 := by split <;> rfl
    simp only [exampleMtxMain, exampleMtxMain.run, stoull_integer hb ht hr (by decide), this, fileContent, hf,
      Option.getD_some, ho]
  · rw [written_lines print hp output (output_headings ho), hn, List.map_replicate]

private theorem printed_shape {fmt : Format} {x : Binary fmt} (h1 : x ≠ .nan) (h2 : ∀ b, x ≠ .inf b) :
    x.printed = (if x.negative then "-" else "").toList ++ millionths (roundEven (|x.toRat| * 10 ^ 6)).toNat := by
  unfold Binary.printed
  split
  · exact (h1 rfl).elim
  · exact (h2 _ rfl).elim
  · rfl

/-- C74: a finite number, of whatever format, is written as a decimal numeral with the same sign and six digits after the
point, which is off by at most half a millionth. -/
theorem C74_printed {fmt : Format} (x : Binary fmt) (h1 : x ≠ .nan) (h2 : ∀ b, x ≠ .inf b) :
    ∃ n : Nat, SpellsFloat x.printed ⟨x.negative, .decimal n (-6)⟩ ∧
      |(n : ℚ) * 10 ^ (-6 : ℤ) - (|x.toRat|)| ≤ 1 / 2 * 10 ^ (-6 : ℤ) := by
  refine ⟨_, ⟨_, _, printed_shape h1 h2, ?_, .decimal (spells_millionths _)⟩, ?_⟩
  · cases x.negative
    · exact .none
    · exact .minus
  · have h0 : (0 : ℤ) ≤ roundEven (|x.toRat| * 10 ^ 6) := by
      by_contra h
      have h3 := abs_le.mp (roundEven_err (|x.toRat| * 10 ^ 6))
      have h4 : (roundEven (|x.toRat| * 10 ^ 6) : ℚ) ≤ -1 := by
        have : roundEven (|x.toRat| * 10 ^ 6) ≤ -1 := by omega
        exact_mod_cast this
      have h5 : (0 : ℚ) ≤ |x.toRat| * 10 ^ 6 := by positivity
      generalize |x.toRat| * 10 ^ 6 = q at h3 h4 h5
      linarith [h3.1, h3.2]
    have h3 := abs_le.mp (roundEven_err (|x.toRat| * 10 ^ 6))
    have h4 : (((roundEven (|x.toRat| * 10 ^ 6)).toNat : ℕ) : ℚ) = roundEven (|x.toRat| * 10 ^ 6) := by
      rw [← Int.cast_natCast, Int.toNat_of_nonneg h0]
    have h5 : (10 : ℚ) ^ (-6 : ℤ) = 1 / 1000000 := by norm_num
    rw [h4, h5, abs_le]
    generalize (roundEven (|x.toRat| * 10 ^ 6) : ℚ) = r at h3
    norm_num at h3
    constructor <;> linarith [h3.1, h3.2]

private theorem mem_toDigits {n : Nat} {c : Char} (h : c ∈ Nat.toDigits 10 n) :
    c ∈ ['0', '1', '2', '3', '4', '5', '6', '7', '8', '9'] := by
  obtain ⟨ds, hs, -⟩ := spells_toDigits n
  generalize Nat.toDigits 10 n = s at h hs
  induction hs with
  | nil => cases h
  | cons hc _ ih =>
    rcases List.mem_cons.mp h with rfl | h
    · obtain ⟨a, ha, hd⟩ := hc
      rw [List.mem_singleton.mp ha] at hd
      exact List.mem_of_getElem? hd
    · exact ih h

private theorem mem_millionths {n : Nat} {c : Char} (h : c ∈ millionths n) :
    c ∈ ['0', '1', '2', '3', '4', '5', '6', '7', '8', '9', '.'] := by
  have key : ∀ {m}, c ∈ Nat.toDigits 10 m → c ∈ ['0', '1', '2', '3', '4', '5', '6', '7', '8', '9', '.'] := fun h => by
    have := mem_toDigits h
    simp only [List.mem_cons, List.not_mem_nil, or_false] at this ⊢
    tauto
  rcases List.mem_append.mp h with h | h
  · exact key h
  · rcases List.mem_cons.mp h with rfl | h
    · decide
    · exact key (List.mem_of_mem_tail h)

/-- C74: numbers are written without newlines and never look like headings. -/
theorem C74_numbers {fmt : Format} (x : Binary fmt) : '\n' ∉ x.printed ∧ ¬ IsHeading x.printed := by
  have key : ∀ (b : Bool) n, '\n' ∉ (if b then "-" else "").toList ++ millionths n ∧
      ¬ IsHeading ((if b then "-" else "").toList ++ millionths n) := by
    intro b n
    have h1 : '\n' ∉ millionths n := fun h => absurd (mem_millionths h) (by decide)
    have h2 : '-' ∉ millionths n := fun h => absurd (mem_millionths h) (by decide)
    cases b with
    | false =>
      refine ⟨h1, fun h => h2 ?_⟩
      exact List.mem_of_mem_take (i := 2) ((congrArg ('-' ∈ ·) h).mpr (by simp))
    | true =>
      refine ⟨fun h => ?_, fun h => ?_⟩
      · rcases List.mem_cons.mp h with h | h
        · exact absurd h (by decide)
        · exact h1 h
      · have h3 : (millionths n).take 1 = ['-'] := (List.cons.inj h).2
        exact h2 (List.mem_of_mem_take (i := 1) (by rw [h3]; simp))
  by_cases h1 : x = .nan
  · subst h1
    exact (by decide : '\n' ∉ "nan".toList ∧ ¬ IsHeading "nan".toList)
  · by_cases h2 : ∃ b, x = .inf b
    · obtain ⟨b, rfl⟩ := h2
      exact (by decide : ∀ b, '\n' ∉ (if b then "-" else "").toList ++ "inf".toList ∧
        ¬ IsHeading ((if b then "-" else "").toList ++ "inf".toList)) b
    · rw [printed_shape h1 fun b e => h2 ⟨b, e⟩]
      exact key _ _

private def sampleText : List Char := "%%MatrixMarket\n3 3 3\n1 1 2\n2 2 4\n3 3 0.5\n".toList

private def sampleRun (arguments : List String) : Option Run :=
  match MtxExample.nos2.sparsity with
  | .ok s => match arrowheadTypes s with
    | .ok T => some (exampleMtxMain Binary.printed (FloatLiteral.toBinary .binary64)
        (fun N => freshFactor s T MtxExample.nos2.dims N (doubleLiteral 17)) (fun x _ => x) .entryWise s
        (fun path => if path = "nos2.mtx".toList then some sampleText else none) (arguments.map String.toList))
    | .error _ => none
  | .error _ => none

example : sampleRun ["example_nos2", "nos2.mtx"] =
    some (.exits true "----- tridiag -----\n0.500000\n0.250000\n2.000000\n".toList) := by decide +kernel

example : sampleRun ["example_nos2", "nos2.mtx", " +2 times"] =
    some (.exits true "----- tridiag -----\n0.500000\n0.250000\n2.000000\n".toList) ∧
  sampleRun ["example_nos2", "nos2.mtx", "0x10"] =
    some (.exits true "----- tridiag -----\n1.000000\n1.000000\n1.000000\n".toList) ∧
  sampleRun ["example_nos2", "other.mtx", "many"] = some .invalidArgument ∧
  sampleRun ["example_nos2", "other.mtx", "18446744073709551616"] = some .outOfRange ∧
  sampleRun ["example_nos2", "other.mtx"] = some (.fails (.mtx .header)) ∧
  sampleRun ["example_nos2"] = some (.exits false "Usage: example_* FILEPATH_MTX [NUM_ITERATIONS]\n\n".toList) := by
  decide +kernel

end Ctldl
