import Verif.Model.Text
import Verif.Lemmas.Printed
import Mathlib.Data.List.Basic

/-! # C78: texts of diagnostics -/

namespace Ctldl

private theorem value_unique {c : Char} {x y : Nat} (hx : HasValue decimalAlphabet c x) (hy : HasValue decimalAlphabet c y) :
    x = y := by
  have h1 := decimalDigit_iff.mpr hx
  have h2 := decimalDigit_iff.mpr hy
  rw [h1] at h2
  exact Option.some.inj h2

private theorem spells_unique {s : List Char} {xs ys : List Nat} (hx : Spells decimalAlphabet s xs)
    (hy : Spells decimalAlphabet s ys) : xs = ys := by
  induction hx generalizing ys with
  | nil => cases hy; rfl
  | cons h _ ih =>
    cases hy with
    | cons h' hs => rw [value_unique h h', ih hs]

private theorem showSize_inj {m n : Nat} (h : showSize m = showSize n) : m = n := by
  obtain ⟨xs, h1, -, h2⟩ := spells_toDigits m
  obtain ⟨ys, h3, -, h4⟩ := spells_toDigits n
  unfold showSize at h
  rw [h] at h1
  rw [← h2, ← h4, spells_unique h1 h3]

private theorem showSize_digit {n : Nat} {c : Char} (h : c ∈ showSize n) : ∃ x, HasValue decimalAlphabet c x := by
  obtain ⟨xs, h1, -⟩ := spells_toDigits n
  unfold showSize at h
  generalize Nat.toDigits 10 n = s at h h1
  induction h1 with
  | nil => cases h
  | cons h' _ ih =>
    rcases List.mem_cons.mp h with rfl | h
    · exact ⟨_, h'⟩
    · exact ih h

private theorem not_digit {c : Char} (h : c ∈ [' ', ']', ',', '}']) (n : Nat) : c ∉ showSize n := by
  intro hc
  obtain ⟨x, a, ha, hx⟩ := showSize_digit hc
  rw [decimalAlphabet, List.mem_singleton] at ha
  subst ha
  have h' := List.mem_of_getElem? hx
  have key : ∀ c ∈ [' ', ']', ',', '}'], c ∉ ['0', '1', '2', '3', '4', '5', '6', '7', '8', '9'] := by decide
  exact key c h h'

private theorem noDigit_of {c : Char} (h : c ∈ [' ', ']', ',', '}']) (rest : List Char) :
    NoDigit decimalAlphabet (c :: rest) := by
  intro c' r he x hx
  cases he
  obtain ⟨a, ha, hx⟩ := hx
  rw [decimalAlphabet, List.mem_singleton] at ha
  subst ha
  have key : ∀ c ∈ [' ', ']', ',', '}'], c ∉ ['0', '1', '2', '3', '4', '5', '6', '7', '8', '9'] := by decide
  exact key c h (List.mem_of_getElem? hx)

private theorem foldl_text (more : List Nat) (s : List Char) :
    more.foldl (fun sstream i => sstream ++ [' '] ++ showSize i) s = s ++ (more.map fun i => ' ' :: showSize i).flatten := by
  induction more generalizing s with
  | nil => simp
  | cons i more ih => rw [List.foldl_cons, ih]; simp

private theorem split_unique {x y z w : List Char} {a b : Char} (hx : b ∉ x) (hy : a ∉ y) (h : x ++ a :: z = y ++ b :: w) :
    x = y ∧ a :: z = b :: w := by
  induction x generalizing y with
  | nil =>
    cases y with
    | nil => exact ⟨rfl, h⟩
    | cons c y => exact absurd (List.cons.inj h).1 (fun e => hy (by rw [e]; exact List.mem_cons_self))
  | cons c x ih =>
    cases y with
    | nil => exact absurd (List.cons.inj h).1.symm (fun e => hx (by rw [e]; exact List.mem_cons_self))
    | cons c' y =>
      obtain ⟨h1, h2⟩ := List.cons.inj h
      obtain ⟨h3, h4⟩ := ih (fun h => hx (List.mem_cons_of_mem _ h)) (fun h => hy (List.mem_cons_of_mem _ h)) h2
      exact ⟨by rw [h1, h3], h4⟩

private theorem spells_showSize (n : Nat) : SpellsInteger (showSize n) false n := by
  obtain ⟨ds, h1, -, h2⟩ := spells_toDigits n
  refine ⟨[], showSize n, ds, rfl, .none, ?_, h1, h2.symm⟩
  rintro rfl
  exact Nat.toDigits_ne_nil (List.forall₂_nil_right_iff.mp h1)

/-- C78: a written number is read back, by the conversion which the reader of matrix files uses, if something other than a
digit follows. -/
theorem C78_number (n : Nat) (h : n < 2 ^ 64) (c : Char) (hc : c ∈ [' ', ']', ',', '}']) (rest : List Char) :
    scanSize (showSize n ++ c :: rest) = .ok (some (n, c :: rest)) := by
  have := scanSize_integer (b := []) (fun _ h => nomatch h) (spells_showSize n) (noDigit_of hc rest)
  rw [List.nil_append, if_pos h] at this
  exact this

/-- C78: the text of an entry has its row and its column in decimal digits. -/
theorem C78_entry (e : Entry) : ∃ r c, showEntry e = "Entry{.row_index=".toList ++ r ++ ", .col_index=".toList ++ c ++ ['}'] ∧
    SpellsInteger r false e.row ∧ SpellsInteger c false e.col :=
  ⟨_, _, rfl, spells_showSize _, spells_showSize _⟩

/-- C78: different entries have different texts. -/
theorem C78_entry_injective (e e' : Entry) (h : showEntry e = showEntry e') : e = e' := by
  unfold showEntry at h
  simp only [List.append_assoc] at h
  have h := List.append_cancel_left h
  have e1 : ", .col_index=".toList = ',' :: " .col_index=".toList := by decide
  rw [e1, List.cons_append, List.cons_append] at h
  obtain ⟨h1, h2⟩ := split_unique (not_digit (c := ',') (by decide) _) (not_digit (c := ',') (by decide) _) h
  have h2 := List.append_cancel_left (List.cons.inj h2).2
  obtain ⟨h2, -⟩ := split_unique (not_digit (c := '}') (by decide) _) (not_digit (c := '}') (by decide) _) h2
  obtain ⟨r, c⟩ := e
  obtain ⟨r', c'⟩ := e'
  rw [Entry.mk.injEq]
  exact ⟨showSize_inj h1, showSize_inj h2⟩

example : showEntry ⟨3, 12⟩ = "Entry{.row_index=3, .col_index=12}".toList := by decide +kernel

/-- C78: the text of a permutation has its numbers in decimal digits, with one space between them, in brackets. -/
theorem C78_permutation (p : List Nat) : ∃ texts, toTestInfo p = ['['] ++ (texts.intersperse [' ']).flatten ++ [']'] ∧
    List.Forall₂ (fun text i => SpellsInteger text false i) texts p := by
  refine ⟨p.map showSize, ?_, ?_⟩
  · cases p with
    | nil => decide
    | cons first more =>
      unfold toTestInfo
      simp only
      rw [foldl_text, List.append_assoc, List.append_assoc, List.append_assoc]
      congr 1
      rw [← List.append_assoc]
      congr 1
      induction more generalizing first with
      | nil => simp
      | cons i more ih =>
        simp only [List.map_cons, List.flatten_cons, List.cons_append, List.intersperse_cons_cons, List.nil_append] at ih ⊢
        rw [ih i]
  · induction p with
    | nil => exact .nil
    | cons i p ih => exact .cons (spells_showSize i) ih

private theorem numbers_unique (p q : List Nat) (i j : Nat)
    (h : showSize i ++ ((p.map fun i => ' ' :: showSize i).flatten ++ [']']) =
      showSize j ++ ((q.map fun i => ' ' :: showSize i).flatten ++ [']'])) : i :: p = j :: q := by
  induction p generalizing i j q with
  | nil =>
    cases q with
    | nil =>
      obtain ⟨h1, -⟩ := split_unique (not_digit (c := ']') (by decide) _) (not_digit (c := ']') (by decide) _) h
      rw [showSize_inj h1]
    | cons k q =>
      simp only [List.map_cons, List.flatten_cons, List.cons_append] at h
      obtain ⟨-, h2⟩ := split_unique (not_digit (c := ' ') (by decide) _) (not_digit (c := ']') (by decide) _) h
      exact absurd (List.cons.inj h2).1 (by decide)
  | cons k p ih =>
    cases q with
    | nil =>
      simp only [List.map_cons, List.flatten_cons, List.cons_append] at h
      obtain ⟨-, h2⟩ := split_unique (not_digit (c := ']') (by decide) _) (not_digit (c := ' ') (by decide) _) h
      exact absurd (List.cons.inj h2).1 (by decide)
    | cons l q =>
      simp only [List.map_cons, List.flatten_cons, List.cons_append, List.append_assoc] at h
      obtain ⟨h1, h2⟩ := split_unique (not_digit (c := ' ') (by decide) _) (not_digit (c := ' ') (by decide) _) h
      rw [showSize_inj h1, ih q k l (List.cons.inj h2).2]

private theorem some_numbers (j : Nat) (q : List Nat) : toTestInfo [] ≠ toTestInfo (j :: q) := by
  intro h
  unfold toTestInfo at h
  simp only at h
  rw [foldl_text, List.append_assoc, List.append_assoc, show "[]".toList = ['['] ++ ([] ++ ']' :: []) by decide] at h
  have h := List.append_cancel_left h
  cases hj : showSize j with
  | nil => exact Nat.toDigits_ne_nil hj
  | cons c s =>
    rw [hj] at h
    have : ']' = c := (List.cons.inj h).1
    exact not_digit (c := ']') (by decide) j (by rw [hj, this]; exact List.mem_cons_self)

/-- C78: different permutations have different texts. -/
theorem C78_permutation_injective (p q : List Nat) (h : toTestInfo p = toTestInfo q) : p = q := by
  cases p with
  | nil =>
    cases q with
    | nil => rfl
    | cons j q => exact absurd h (some_numbers j q)
  | cons i p =>
    cases q with
    | nil => exact absurd h.symm (some_numbers i p)
    | cons j q =>
      unfold toTestInfo at h
      simp only at h
      rw [foldl_text, foldl_text, List.append_assoc, List.append_assoc, List.append_assoc, List.append_assoc] at h
      exact numbers_unique p q i j (List.append_cancel_left h)

example : toTestInfo [2, 0, 10] = "[2 0 10]".toList ∧ toTestInfo [] = "[]".toList := by decide +kernel

/-- C78: the three kinds of violated contracts have different messages, wherever they are. -/
theorem C78_contract_kind (kind kind' : ContractKind) (location location' : SourceLocation)
    (h : contractMessage kind location = contractMessage kind' location') : kind = kind' := by
  unfold contractMessage at h
  simp only [List.append_assoc] at h
  have h := congrArg (List.take 2) (List.append_cancel_left h)
  have hl : ∀ k : ContractKind, 2 ≤ k.text.length := by intro k; cases k <;> decide
  rw [List.take_append_of_le_length (hl kind), List.take_append_of_le_length (hl kind')] at h
  revert h
  cases kind <;> cases kind' <;> decide

/-- C78: a contract which is checked without a location has the same message wherever it is violated, that of the location
`std::source_location{}`. -/
theorem C78_contract_location (empty : SourceLocation) (kind : ContractKind) :
    contractCheck empty kind true = .ok () ∧
    contractCheck empty kind false = .error (contractMessage kind empty) := ⟨rfl, rfl⟩

/-- C78: a contract which is checked with a location does nothing if it holds, and otherwise the message has the file, the
line in decimal digits and the function of that location. -/
theorem C78_contract_given (empty location : SourceLocation) (kind : ContractKind) :
    contractCheck empty kind true (some location) = .ok () ∧
    ∃ line, SpellsInteger line false location.line ∧ contractCheck empty kind false (some location) = .error
      ("Contract ".toList ++ (match kind with
        | .precondition => "precondition"
        | .postcondition => "postcondition"
        | .assertion => "assertion").toList ++ " violation at ".toList ++ location.fileName ++ ":".toList ++ line ++
        " in function ".toList ++ location.functionName) := by
  refine ⟨rfl, showSize location.line, spells_showSize _, ?_⟩
  cases kind <;> rfl

example : contractCheck ⟨[], 0, []⟩ .postcondition false (some ⟨"main.cpp".toList, 12, "int main()".toList⟩) =
    .error "Contract postcondition violation at main.cpp:12 in function int main()".toList := by decide +kernel

end Ctldl
