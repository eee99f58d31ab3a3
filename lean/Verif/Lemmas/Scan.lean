import Verif.Spec.Scan
import Mathlib.Tactic.IntervalCases
import Mathlib.Data.List.Basic
import Mathlib.Data.List.Induction
import Mathlib.Data.List.TakeWhile

/-! # Scanning texts of matrix files -/

namespace Ctldl

theorem isSpace_iff {c : Char} : isSpace c = true ↔ c ∈ [' ', '\t', '\n', '\x0b', '\x0c', '\r'] := by
  unfold isSpace
  simp only [Bool.or_eq_true, beq_iff_eq, List.mem_cons, List.not_mem_nil, or_false, or_assoc]

private theorem char_eq {c : Char} {n : Nat} (h : c.toNat = n) : c = Char.ofNat n := by
  rw [← h]
  exact (Char.ofNat_toNat c).symm

theorem decimalDigit_iff {c : Char} {d : Nat} : decimalDigit c = some d ↔ HasValue decimalAlphabet c d := by
  unfold decimalDigit
  constructor
  · intro h
    split at h
    · next hc =>
      have h1 : 48 ≤ c.toNat := hc.1
      have h2 : c.toNat ≤ 57 := hc.2
      have h3 := Option.some.inj h
      subst h3
      generalize hn : c.toNat = n at *
      have := char_eq hn
      subst this
      interval_cases n <;> exact ⟨_, List.mem_singleton.mpr rfl, by decide⟩
    · cases h
  · rintro ⟨a, ha, h⟩
    rw [decimalAlphabet, List.mem_singleton] at ha
    subst ha
    obtain ⟨hd, h⟩ := List.getElem?_eq_some_iff.mp h
    subst h
    simp only [List.length_cons, List.length_nil] at hd
    interval_cases d <;> rfl

theorem hexadecimalDigit_iff {c : Char} {d : Nat} : hexadecimalDigit c = some d ↔ HasValue hexadecimalAlphabet c d := by
  unfold hexadecimalDigit
  constructor
  · intro h
    split at h
    · next hc =>
      have h1 : 48 ≤ c.toNat := hc.1
      have h2 : c.toNat ≤ 57 := hc.2
      have h3 := Option.some.inj h
      subst h3
      generalize hn : c.toNat = n at *
      have := char_eq hn
      subst this
      interval_cases n <;> exact ⟨_, List.mem_cons_self, by decide⟩
    · split at h
      · next hc =>
        have h1 : 97 ≤ c.toNat := hc.1
        have h2 : c.toNat ≤ 102 := hc.2
        have h3 := Option.some.inj h
        subst h3
        generalize hn : c.toNat = n at *
        have := char_eq hn
        subst this
        interval_cases n <;> exact ⟨_, List.mem_cons_self, by decide⟩
      · split at h
        · next hc =>
          have h1 : 65 ≤ c.toNat := hc.1
          have h2 : c.toNat ≤ 70 := hc.2
          have h3 := Option.some.inj h
          subst h3
          generalize hn : c.toNat = n at *
          have := char_eq hn
          subst this
          interval_cases n <;> exact ⟨_, List.mem_cons_of_mem _ List.mem_cons_self, by decide⟩
        · cases h
  · rintro ⟨a, ha, h⟩
    rw [hexadecimalAlphabet, List.mem_cons, List.mem_singleton] at ha
    rcases ha with rfl | rfl
    all_goals
      obtain ⟨hd, h⟩ := List.getElem?_eq_some_iff.mp h
      subst h
      simp only [List.length_cons, List.length_nil] at hd
      interval_cases d <;> rfl

/-! ### Digits -/

section

variable {digit : Char → Option Nat} {alphabet : List (List Char)} (hd : ∀ {c d}, digit c = some d ↔ HasValue alphabet c d)

include hd

theorem digitsOf_append {s rest : List Char} {ds : List Nat} (h : Spells alphabet s ds) (hr : NoDigit alphabet rest) :
    digitsOf digit (s ++ rest) = ds ∧ afterDigits digit (s ++ rest) = rest := by
  have h1 : ∀ c ∈ s, (digit c).isSome = true := fun c hc => by
    obtain ⟨i, hi, rfl⟩ := List.getElem_of_mem hc
    have hl := h.length_eq
    have := List.forall₂_iff_get.mp h |>.2 i hi (by omega)
    rw [List.get_eq_getElem] at this
    rw [hd.mpr this]
    rfl
  have h2 : rest.takeWhile (fun c => (digit c).isSome) = [] ∧ rest.dropWhile (fun c => (digit c).isSome) = rest := by
    cases rest with
    | nil => exact ⟨rfl, rfl⟩
    | cons c r =>
      have : digit c = none := by
        cases hc : digit c with
        | none => rfl
        | some d => exact (hr c r rfl d (hd.mp hc)).elim
      rw [List.takeWhile_cons, List.dropWhile_cons, this]
      exact ⟨rfl, rfl⟩
  unfold digitsOf afterDigits
  rw [List.takeWhile_append_of_pos h1, List.dropWhile_append_of_pos h1, h2.1, h2.2, List.append_nil]
  refine ⟨?_, rfl⟩
  clear h1 h2 hr
  induction h with
  | nil => rfl
  | cons h _ ih => rw [List.filterMap_cons, hd.mpr h]; exact congrArg _ ih

theorem digitsOf_split (s : List Char) : ∃ t, s = t ++ afterDigits digit s ∧ Spells alphabet t (digitsOf digit s) ∧
    NoDigit alphabet (afterDigits digit s) := by
  refine ⟨s.takeWhile fun c => (digit c).isSome, (List.takeWhile_append_dropWhile).symm, ?_, ?_⟩
  · unfold digitsOf Spells
    have h : ∀ c ∈ s.takeWhile fun c => (digit c).isSome, (digit c).isSome = true := fun c hc => List.mem_takeWhile_imp (p := fun c => (digit c).isSome) hc
    generalize (s.takeWhile fun c => (digit c).isSome) = t at h
    induction t with
    | nil => exact .nil
    | cons c t ih =>
      obtain ⟨d, hc⟩ := Option.isSome_iff_exists.mp (h c (by simp))
      rw [List.filterMap_cons, hc]
      exact .cons (hd.mp hc) (ih fun c hc => h c (by simp [hc]))
  · intro c r h d hv
    unfold afterDigits at h
    have := List.head_dropWhile_not (fun c => (digit c).isSome) (l := s) (by rw [h]; simp)
    simp only [h, List.head_cons, hd.mpr hv, Option.isSome_some] at this
    cases this

end

theorem digitsValue_eq (base : Nat) (ds : List Nat) : digitsValue base ds = Nat.ofDigits base ds.reverse := by
  unfold digitsValue
  induction ds using List.reverseRecOn with
  | nil => rfl
  | append_singleton ds d ih =>
    rw [List.foldl_append, List.foldl_cons, List.foldl_nil, ih, List.reverse_append, List.reverse_singleton,
      List.singleton_append, Nat.ofDigits_cons]
    exact Nat.add_comm _ _

/-! ### Spaces and signs -/

theorem dropWhile_blank {b s : List Char} (hb : Blank b) (hs : ∀ c r, s = c :: r → isSpace c = false) :
    (b ++ s).dropWhile isSpace = s := by
  rw [List.dropWhile_append_of_pos fun c hc => isSpace_iff.mpr (hb c hc)]
  cases s with
  | nil => rfl
  | cons c r => rw [List.dropWhile_cons, hs c r rfl]; rfl

theorem split_blank (s : List Char) : ∃ b, s = b ++ s.dropWhile isSpace ∧ Blank b :=
  ⟨s.takeWhile isSpace, (List.takeWhile_append_dropWhile).symm, fun _ hc => isSpace_iff.mp (List.mem_takeWhile_imp hc)⟩

theorem scanSign_append {sign s : List Char} {negative : Bool} (h : Signed sign negative)
    (hs : ∀ c r, s = c :: r → c ≠ '+' ∧ c ≠ '-') : scanSign (sign ++ s) = (negative, s) := by
  cases h with
  | none =>
    cases s with
    | nil => rfl
    | cons c r =>
      obtain ⟨h1, h2⟩ := hs c r rfl
      rw [List.nil_append]
      unfold scanSign
      split
      · next h => exact (h1 (List.cons.inj h).1).elim
      · next h => exact (h2 (List.cons.inj h).1).elim
      · rfl
  | plus => rfl
  | minus => rfl

theorem scanSign_split (s : List Char) : ∃ sign, s = sign ++ (scanSign s).2 ∧ Signed sign (scanSign s).1 := by
  unfold scanSign
  split
  · exact ⟨_, rfl, .plus⟩
  · exact ⟨_, rfl, .minus⟩
  · exact ⟨_, rfl, .none⟩

theorem signed_head {sign s : List Char} {negative : Bool} (h : Signed sign negative) {c : Char} {r : List Char}
    (he : sign ++ s = c :: r) : c = '+' ∨ c = '-' ∨ s = c :: r := by
  cases h with
  | none => exact Or.inr (Or.inr he)
  | plus => exact Or.inl (List.cons.inj he).1.symm
  | minus => exact Or.inr (Or.inl (List.cons.inj he).1.symm)

/-! ### Words -/

theorem scanWord_iff {word s r : List Char} : scanWord word s = some r ↔ ∃ u, s = u ++ r ∧ SpellsWord word u := by
  unfold scanWord SpellsWord
  constructor
  · intro h
    split at h
    · next hw =>
      rw [← Option.some.inj h]
      exact ⟨_, (List.take_append_drop _ _).symm, beq_iff_eq.mp hw⟩
    · cases h
  · rintro ⟨u, rfl, rfl⟩
    rw [List.length_map, List.take_left, List.drop_left, if_pos (beq_iff_eq.mpr rfl)]

theorem spellsWord_cons {w : Char} {ws s : List Char} (h : SpellsWord (w :: ws) s) :
    ∃ c r, s = c :: r ∧ c.toLower = w ∧ SpellsWord ws r := by
  cases s with
  | nil => cases h
  | cons c r => exact ⟨c, r, rfl, (List.cons.inj h).1, (List.cons.inj h).2⟩

theorem scanWord_none {w : Char} {word s : List Char} (h : ∀ c r, s = c :: r → c.toLower ≠ w) :
    scanWord (w :: word) s = none := by
  cases hs : scanWord (w :: word) s with
  | none => rfl
  | some r =>
    obtain ⟨u, rfl, hu⟩ := scanWord_iff.mp hs
    cases u with
    | nil => cases hu
    | cons c u => exact (h c _ rfl (List.cons.inj hu).1).elim

/-! ### Integers -/

theorem decimal_char {c : Char} {d : Nat} (h : HasValue decimalAlphabet c d) :
    isSpace c = false ∧ c ≠ '+' ∧ c ≠ '-' ∧ c ≠ '.' ∧ c.toLower ≠ 'i' ∧ c.toLower ≠ 'n' ∧ c.toLower ≠ 'x' := by
  obtain ⟨a, ha, h⟩ := h
  rw [decimalAlphabet, List.mem_singleton] at ha
  subst ha
  obtain ⟨hd, h⟩ := List.getElem?_eq_some_iff.mp h
  simp only [List.length_cons, List.length_nil] at hd
  interval_cases d <;> (simp only [List.getElem_cons_zero, List.getElem_cons_succ] at h; subst h; decide)

theorem scanSize_integer {b t rest : List Char} {negative : Bool} {n : Nat} (hb : Blank b)
    (ht : SpellsInteger t negative n) (hr : NoDigit decimalAlphabet rest) :
    scanSize (b ++ t ++ rest) = if n < 2 ^ 64 then
      .ok (some (if negative then (2 ^ 64 - n) % 2 ^ 64 else n, rest)) else .error .ub := by
  obtain ⟨sign, digits, ds, rfl, hs, h0, hd, rfl⟩ := ht
  have hh : ∀ c r, digits ++ rest = c :: r → ∃ d, HasValue decimalAlphabet c d := by
    cases hd with
    | nil => exact (h0 rfl).elim
    | cons h _ =>
      intro c r he
      rw [← (List.cons.inj he).1]
      exact ⟨_, h⟩
  unfold scanSize
  rw [List.append_assoc, List.append_assoc, dropWhile_blank hb, scanSign_append hs]
  · simp only
    rw [(digitsOf_append decimalDigit_iff hd hr).1, (digitsOf_append decimalDigit_iff hd hr).2, digitsValue_eq,
      if_neg (by rw [List.isEmpty_iff]; exact h0)]
  · intro c r he
    obtain ⟨d, h⟩ := hh c r he
    exact ⟨(decimal_char h).2.1, (decimal_char h).2.2.1⟩
  · intro c r he
    rcases signed_head hs he with rfl | rfl | h
    · rfl
    · rfl
    · obtain ⟨d, h⟩ := hh c r h
      exact (decimal_char h).1

theorem scanSize_cases (s : List Char) : scanSize s = .ok none ∨ ∃ b t rest negative n, s = b ++ t ++ rest ∧ Blank b ∧
    SpellsInteger t negative n ∧ NoDigit decimalAlphabet rest := by
  obtain ⟨b, h1, hb⟩ := split_blank s
  obtain ⟨sign, h2, hs⟩ := scanSign_split (s.dropWhile isSpace)
  obtain ⟨t, h3, ht, hr⟩ := digitsOf_split decimalDigit_iff (scanSign (s.dropWhile isSpace)).2
  by_cases h0 : digitsOf decimalDigit (scanSign (s.dropWhile isSpace)).2 = []
  · left
    unfold scanSize
    simp only
    rw [if_pos (by rw [List.isEmpty_iff]; exact h0)]
  · right
    refine ⟨b, sign ++ t, _, _, _, ?_, hb, ⟨sign, t, _, rfl, hs, h0, ht, rfl⟩, hr⟩
    rw [List.append_assoc, List.append_assoc, ← h3, ← h2]
    exact h1

theorem scanSize_some {s rest : List Char} {v : Nat} : scanSize s = .ok (some (v, rest)) ↔ ∃ b t, s = b ++ t ++ rest ∧
    Blank b ∧ SpellsIndex t v ∧ NoDigit decimalAlphabet rest := by
  constructor
  · intro h
    rcases scanSize_cases s with h' | ⟨b, t, rest', negative, n, rfl, hb, ht, hr⟩
    · rw [h'] at h; cases h
    · rw [scanSize_integer hb ht hr] at h
      split at h
      · next hn =>
        have h1 := Option.some.inj (Except.ok.inj h)
        obtain ⟨h2, rfl⟩ := Prod.mk.inj h1
        exact ⟨b, t, rfl, hb, ⟨negative, n, ht, hn, h2.symm⟩, hr⟩
      · cases h
  · rintro ⟨b, t, rfl, hb, ⟨negative, n, ht, hn, rfl⟩, hr⟩
    rw [scanSize_integer hb ht hr, if_pos hn]

theorem scanSize_error {s : List Char} {e : Err} : scanSize s = .error e ↔ e = .ub ∧ ∃ b t rest negative n,
    s = b ++ t ++ rest ∧ Blank b ∧ SpellsInteger t negative n ∧ NoDigit decimalAlphabet rest ∧ 2 ^ 64 ≤ n := by
  constructor
  · intro h
    rcases scanSize_cases s with h' | ⟨b, t, rest', negative, n, rfl, hb, ht, hr⟩
    · rw [h'] at h; cases h
    · rw [scanSize_integer hb ht hr] at h
      split at h
      · cases h
      · next hn => exact ⟨(Except.error.inj h).symm, b, t, rest', negative, n, rfl, hb, ht, hr, Nat.le_of_not_lt hn⟩
  · rintro ⟨rfl, b, t, rest, negative, n, rfl, hb, ht, hr, hn⟩
    rw [scanSize_integer hb ht hr, if_neg (Nat.not_lt.mpr hn)]

/-! ### Numerals -/

theorem noDigit_of_separated {alphabet : List (List Char)} (ha : ∀ c d, HasValue alphabet c d → isSpace c = false)
    {rest : List Char} (h : Separated rest) : NoDigit alphabet rest := by
  intro c r he d hv
  have := isSpace_iff.mpr (h c r he c (List.mem_singleton.mpr rfl))
  rw [ha c d hv] at this
  cases this

theorem scanInteger {t rest : List Char} {negative : Bool} {n : Nat} (ht : SpellsInteger t negative n)
    (hr : NoDigit decimalAlphabet rest) : (scanSign (t ++ rest)).1 = negative ∧
      digitsOf decimalDigit (scanSign (t ++ rest)).2 ≠ [] ∧ digitsValue 10 (digitsOf decimalDigit (scanSign (t ++ rest)).2) = n := by
  obtain ⟨sign, digits, ds, rfl, hs, h0, hd, rfl⟩ := ht
  rw [List.append_assoc, scanSign_append hs]
  · simp only
    rw [(digitsOf_append decimalDigit_iff hd hr).1]
    exact ⟨trivial, h0, digitsValue_eq _ _⟩
  · intro c r he
    cases hd with
    | nil => exact (h0 rfl).elim
    | cons h _ =>
      rw [← (List.cons.inj he).1]
      exact ⟨(decimal_char h).2.1, (decimal_char h).2.2.1⟩

theorem scanExponent_cons (m m' c : Char) (s : List Char) : scanExponent m m' (c :: s) =
    if c == m || c == m' then
      if (digitsOf decimalDigit (scanSign s).2).isEmpty then none
      else some (if (scanSign s).1 then -(digitsValue 10 (digitsOf decimalDigit (scanSign s).2) : Int)
        else (digitsValue 10 (digitsOf decimalDigit (scanSign s).2) : Int))
    else some 0 := rfl

theorem scanExponent_append {m m' : Char} {s rest : List Char} {e : Int} (h : SpellsExponent [m, m'] s e)
    (hr : NoDigit decimalAlphabet rest) (hm : ∀ c r, rest = c :: r → c ≠ m ∧ c ≠ m') :
    scanExponent m m' (s ++ rest) = some e := by
  rcases h with ⟨rfl, rfl⟩ | ⟨k, hk, s', negative, n, rfl, h, rfl⟩
  · cases rest with
    | nil => rfl
    | cons c r =>
      obtain ⟨h1, h2⟩ := hm c r rfl
      rw [List.nil_append, scanExponent_cons, if_neg (by simp [h1, h2])]
  · obtain ⟨h1, h2, h3⟩ := scanInteger h hr
    rw [List.cons_append, scanExponent_cons, if_pos (by simpa using hk), if_neg (by rw [List.isEmpty_iff]; exact h2), h1, h3]

theorem scanExponent_split {m m' : Char} {s : List Char} {e : Int} (h : scanExponent m m' s = some e) :
    ∃ t rest, s = t ++ rest ∧ SpellsExponent [m, m'] t e := by
  cases s with
  | nil => exact ⟨[], [], rfl, Or.inl ⟨rfl, (Option.some.inj h).symm⟩⟩
  | cons c s =>
    rw [scanExponent_cons] at h
    split at h
    · next hc =>
      split at h
      · cases h
      · next h0 =>
        obtain ⟨sign, h2, hs⟩ := scanSign_split s
        obtain ⟨t, h3, ht, -⟩ := digitsOf_split decimalDigit_iff (scanSign s).2
        refine ⟨c :: (sign ++ t), afterDigits decimalDigit (scanSign s).2, ?_, Or.inr ⟨c, ?_, _, _, _, rfl,
          ⟨sign, t, _, rfl, hs, by rwa [List.isEmpty_iff] at h0, ht, rfl⟩, ?_⟩⟩
        · rw [List.cons_append, List.append_assoc, ← h3, ← h2]
        · simpa using hc
        · rw [← digitsValue_eq]
          exact (Option.some.inj h).symm
    · exact ⟨[], c :: s, rfl, Or.inl ⟨rfl, (Option.some.inj h).symm⟩⟩

theorem scanPositional_point {digit : Char → Option Nat} {base weight : Nat} {m m' : Char} {s r : List Char}
    (h : afterDigits digit s = '.' :: r) : scanPositional digit base weight m m' s =
      if (digitsOf digit s).isEmpty && (digitsOf digit r).isEmpty then none
      else (scanExponent m m' (afterDigits digit r)).map fun e : Int =>
        (digitsValue base (digitsOf digit s ++ digitsOf digit r), e - ((weight * (digitsOf digit r).length : Nat) : Int)) := by
  unfold scanPositional
  rw [h]
  rfl

theorem scanPositional_whole {digit : Char → Option Nat} {base weight : Nat} {m m' : Char} {s : List Char}
    (h : ∀ r, afterDigits digit s ≠ '.' :: r) : scanPositional digit base weight m m' s =
      if (digitsOf digit s).isEmpty then none
      else (scanExponent m m' (afterDigits digit s)).map fun e => (digitsValue base (digitsOf digit s), e) := by
  unfold scanPositional
  split
  · next s' h' =>
    split at h'
    · next r hr => exact (h r hr).elim
    · obtain ⟨rfl, rfl⟩ := Prod.mk.inj h'
      simp

section

variable {digit : Char → Option Nat} {alphabet : List (List Char)} (hd : ∀ {c d}, digit c = some d ↔ HasValue alphabet c d)
  {base weight : Nat} {m m' : Char}

include hd

theorem scanPositional_append (ha : ∀ c d, HasValue alphabet c d → isSpace c = false ∧ c ≠ '.' ∧ c ≠ m ∧ c ≠ m')
    (hm : isSpace m = false ∧ isSpace m' = false ∧ m ≠ '.' ∧ m' ≠ '.') {s rest : List Char} {mantissa : Nat} {e : Int}
    (h : SpellsPositional alphabet base weight [m, m'] s mantissa e) (hr : Separated rest) :
    scanPositional digit base weight m m' (s ++ rest) = some (mantissa, e) := by
  obtain ⟨whole, fraction, point, marked, ds, fs, e, rfl, hw, hf, hp, h0, he, rfl, rfl⟩ := h
  have hspace : ∀ c r, rest = c :: r → isSpace c = true := fun c r hc =>
    isSpace_iff.mpr (hr c r hc c (List.mem_singleton.mpr rfl))
  have hr1 : NoDigit decimalAlphabet rest := noDigit_of_separated (fun c d h => (decimal_char h).1) hr
  have hmark : ∀ c r, marked ++ rest = c :: r → isSpace c = true ∨ c = m ∨ c = m' := by
    intro c r hc
    rcases he with ⟨rfl, -⟩ | ⟨k, hk, s', -, -, rfl, -, -⟩
    · exact Or.inl (hspace c r hc)
    · rw [List.cons_append] at hc
      rw [← (List.cons.inj hc).1]
      simpa using Or.inr hk
  have hr2 : NoDigit alphabet (marked ++ rest) := by
    intro c r hc d hv
    obtain ⟨h1, -, h3, h4⟩ := ha c d hv
    rcases hmark c r hc with h | h | h
    · rw [h1] at h; cases h
    · exact h3 h
    · exact h4 h
  have hexp := scanExponent_append he hr1 fun c r hc => by
    have := hspace c r hc
    constructor
    · rintro rfl
      rw [hm.1] at this; cases this
    · rintro rfl
      rw [hm.2.1] at this; cases this
  rcases hp with rfl | ⟨rfl, rfl⟩
  · have hr3 : NoDigit alphabet ('.' :: (fraction ++ (marked ++ rest))) := by
      intro c r hc d hv
      exact (ha c d hv).2.1 (List.cons.inj hc).1.symm
    obtain ⟨h1, h2⟩ := digitsOf_append hd hw hr3
    obtain ⟨h3, h4⟩ := digitsOf_append hd hf hr2
    rw [show whole ++ (['.'] ++ fraction ++ marked) ++ rest = whole ++ ('.' :: (fraction ++ (marked ++ rest))) by simp]
    rw [scanPositional_point h2, h1, h3, h4, hexp, if_neg, digitsValue_eq]
    · rfl
    · rw [Bool.and_eq_true, List.isEmpty_iff, List.isEmpty_iff]
      rintro ⟨h5, h6⟩
      exact h0.elim (fun h => h h5) (fun h => h h6)
  · cases hf
    obtain ⟨h1, h2⟩ := digitsOf_append hd hw hr2
    rw [show whole ++ ([] ++ [] ++ marked) ++ rest = whole ++ (marked ++ rest) by simp]
    rw [scanPositional_whole, h1, h2, hexp, if_neg, digitsValue_eq]
    · simp
    · rw [List.isEmpty_iff]
      exact fun h => h0.elim (fun h' => h' h) (fun h' => h' rfl)
    · rw [h2]
      intro r hc
      rcases hmark '.' r hc with h | h | h
      · exact absurd h (by decide)
      · exact hm.2.2.1 h.symm
      · exact hm.2.2.2 h.symm

theorem scanPositional_split {s : List Char} {mantissa : Nat} {e : Int}
    (h : scanPositional digit base weight m m' s = some (mantissa, e)) :
    ∃ t rest, s = t ++ rest ∧ SpellsPositional alphabet base weight [m, m'] t mantissa e := by
  obtain ⟨w, h1, hw, -⟩ := digitsOf_split hd s
  by_cases hp : ∃ r, afterDigits digit s = '.' :: r
  · obtain ⟨r, hp⟩ := hp
    obtain ⟨f, h2, hf, -⟩ := digitsOf_split hd r
    rw [scanPositional_point hp] at h
    split at h
    · cases h
    · next h0 =>
      obtain ⟨e', he, h⟩ := Option.map_eq_some_iff.mp h
      obtain ⟨rfl, rfl⟩ := Prod.mk.inj h
      obtain ⟨t, rest, h3, ht⟩ := scanExponent_split he
      refine ⟨w ++ (['.'] ++ f ++ t), rest, ?_, w, f, ['.'], t, _, _, e', rfl, hw, hf, Or.inl rfl, ?_, ht,
        digitsValue_eq _ _, rfl⟩
      · rw [h1, hp, h2, h3]
        simp
      · rw [Bool.and_eq_true, List.isEmpty_iff, List.isEmpty_iff, not_and_or] at h0
        exact h0
  · rw [scanPositional_whole fun r hr => hp ⟨r, hr⟩] at h
    split at h
    · cases h
    · next h0 =>
      obtain ⟨e', he, h⟩ := Option.map_eq_some_iff.mp h
      obtain ⟨rfl, rfl⟩ := Prod.mk.inj h
      obtain ⟨t, rest, h3, ht⟩ := scanExponent_split he
      refine ⟨w ++ ([] ++ [] ++ t), rest, ?_, w, [], [], t, _, [], e', rfl, hw, .nil, Or.inr ⟨rfl, rfl⟩, Or.inl ?_, ht,
        ?_, by simp⟩
      · rw [h1, h3]
        simp
      · rwa [List.isEmpty_iff] at h0
      · rw [List.append_nil]
        exact digitsValue_eq _ _

end

theorem hexadecimal_char {c : Char} {d : Nat} (h : HasValue hexadecimalAlphabet c d) :
    isSpace c = false ∧ c ≠ '.' ∧ c ≠ 'p' ∧ c ≠ 'P' := by
  obtain ⟨a, ha, h⟩ := h
  rw [hexadecimalAlphabet, List.mem_cons, List.mem_singleton] at ha
  rcases ha with rfl | rfl
  all_goals
    obtain ⟨hd, h⟩ := List.getElem?_eq_some_iff.mp h
    simp only [List.length_cons, List.length_nil] at hd
    interval_cases d <;> (simp only [List.getElem_cons_zero, List.getElem_cons_succ] at h; subst h; decide)

theorem decimal_char' {c : Char} {d : Nat} (h : HasValue decimalAlphabet c d) :
    isSpace c = false ∧ c ≠ '.' ∧ c ≠ 'e' ∧ c ≠ 'E' := by
  obtain ⟨a, ha, h⟩ := h
  rw [decimalAlphabet, List.mem_singleton] at ha
  subst ha
  obtain ⟨hd, h⟩ := List.getElem?_eq_some_iff.mp h
  simp only [List.length_cons, List.length_nil] at hd
  interval_cases d <;> (simp only [List.getElem_cons_zero, List.getElem_cons_succ] at h; subst h; decide)

theorem spells_forall {alphabet : List (List Char)} {P : Char → Prop} (h : ∀ c d, HasValue alphabet c d → P c)
    {s : List Char} {ds : List Nat} (hs : Spells alphabet s ds) : ∀ c ∈ s, P c := by
  induction hs with
  | nil => exact fun _ h => nomatch h
  | cons h1 _ ih =>
    intro c hc
    rcases List.mem_cons.mp hc with rfl | hc
    · exact h _ _ h1
    · exact ih c hc

theorem integer_forall {P : Char → Prop} (h : ∀ c d, HasValue decimalAlphabet c d → P c) (h1 : P '+') (h2 : P '-')
    {s : List Char} {negative : Bool} {n : Nat} (hs : SpellsInteger s negative n) : ∀ c ∈ s, P c := by
  obtain ⟨sign, digits, ds, rfl, hs, -, hd, -⟩ := hs
  intro c hc
  rcases List.mem_append.mp hc with hc | hc
  · cases hs with
    | none => cases hc
    | plus => rw [List.mem_singleton.mp hc]; exact h1
    | minus => rw [List.mem_singleton.mp hc]; exact h2
  · exact spells_forall h hd c hc

theorem decimal_forall {P : Char → Prop} (h : ∀ c d, HasValue decimalAlphabet c d → P c) (h1 : P '+') (h2 : P '-')
    (h3 : P '.') (h4 : P 'e') (h5 : P 'E') {s : List Char} {n : Nat} {e : Int} {base weight : Nat}
    (hs : SpellsPositional decimalAlphabet base weight ['e', 'E'] s n e) : ∀ c ∈ s, P c := by
  obtain ⟨whole, fraction, point, marked, ds, fs, e', rfl, hw, hf, hp, -, he, -, -⟩ := hs
  intro c hc
  rcases List.mem_append.mp hc with hc | hc
  · exact spells_forall h hw c hc
  rcases List.mem_append.mp hc with hc | hc
  · rcases List.mem_append.mp hc with hc | hc
    · rcases hp with rfl | ⟨rfl, -⟩
      · rw [List.mem_singleton.mp hc]; exact h3
      · cases hc
    · exact spells_forall h hf c hc
  · rcases he with ⟨rfl, -⟩ | ⟨k, hk, s', negative, n', rfl, hi, -⟩
    · cases hc
    · rcases List.mem_cons.mp hc with rfl | hc
      · rcases List.mem_cons.mp hk with rfl | hk
        · exact h4
        · rw [List.mem_singleton.mp hk]; exact h5
      · exact integer_forall h h1 h2 hi c hc

/-- A decimal numeral starts with a digit or a point. -/
theorem decimal_head {s : List Char} {n : Nat} {e : Int} {base weight : Nat}
    (hs : SpellsPositional decimalAlphabet base weight ['e', 'E'] s n e) :
    ∃ c r, s = c :: r ∧ ((∃ d, HasValue decimalAlphabet c d) ∨ c = '.') := by
  obtain ⟨whole, fraction, point, marked, ds, fs, e', rfl, hw, hf, hp, h0, -, -, -⟩ := hs
  cases hw with
  | cons h1 _ => exact ⟨_, _, rfl, Or.inl ⟨_, h1⟩⟩
  | nil =>
    rcases hp with rfl | ⟨rfl, rfl⟩
    · exact ⟨_, _, rfl, Or.inr rfl⟩
    · cases hf
      exact (h0.elim (· rfl) (· rfl)).elim

theorem separated_lower {rest : List Char} (h : Separated rest) {c : Char} {r : List Char} (hc : rest = c :: r) :
    c.toLower ≠ 'i' ∧ c.toLower ≠ 'x' ∧ c ≠ '(' := by
  have := h c r hc c (List.mem_singleton.mpr rfl)
  simp only [List.mem_cons, List.not_mem_nil, or_false] at this
  rcases this with rfl | rfl | rfl | rfl | rfl | rfl <;> decide

theorem isNChar_iff {c : Char} : isNChar c = true ↔ c.isAlphanum ∨ c = '_' := by
  unfold isNChar Char.isAlphanum Char.isAlpha Char.isDigit Char.isUpper Char.isLower
  simp only [Bool.or_eq_true, Bool.and_eq_true, decide_eq_true_eq, beq_iff_eq]
  have : ∀ a b : Char, a ≤ b ↔ a.val ≤ b.val := fun _ _ => Iff.rfl
  simp only [this]
  tauto

theorem scanNumeral_append {s rest : List Char} {n : Numeral} (h : SpellsNumeral s n) (hr : Separated rest) :
    scanNumeral (s ++ rest) = some n := by
  cases h with
  | @decimal s m e h =>
    obtain ⟨c, r, hc, hcd⟩ := decimal_head h
    have hlow : c.toLower ≠ 'i' ∧ c.toLower ≠ 'n' := by
      rcases hcd with ⟨d, hd⟩ | rfl
      · exact ⟨(decimal_char hd).2.2.2.2.1, (decimal_char hd).2.2.2.2.2.1⟩
      · decide
    have h1 : scanWord ['i', 'n', 'f'] (s ++ rest) = none := scanWord_none fun c' r' he => by
      rw [hc, List.cons_append] at he
      rw [← (List.cons.inj he).1]
      exact hlow.1
    have h2 : scanWord ['n', 'a', 'n'] (s ++ rest) = none := scanWord_none fun c' r' he => by
      rw [hc, List.cons_append] at he
      rw [← (List.cons.inj he).1]
      exact hlow.2
    have h3 : scanWord ['0', 'x'] (s ++ rest) = none := by
      cases hw : scanWord ['0', 'x'] (s ++ rest) with
      | none => rfl
      | some t =>
        obtain ⟨u, hu, hx⟩ := scanWord_iff.mp hw
        exfalso
        obtain ⟨a, u, rfl, -, hx⟩ := spellsWord_cons hx
        obtain ⟨b, u, rfl, hb, -⟩ := spellsWord_cons hx
        · rw [hc, List.cons_append, List.cons_append] at hu
          have hu := (List.cons.inj hu).2
          cases r with
          | nil => exact (separated_lower hr hu).2.1 hb
          | cons b' r =>
            have hb' : b' = b := (List.cons.inj hu).1
            refine decimal_forall (P := fun c => c.toLower ≠ 'x') (fun c d h => (decimal_char h).2.2.2.2.2.2) (by decide)
              (by decide) (by decide) (by decide) (by decide) h b ?_ hb
            rw [hc, hb']
            simp
    unfold scanNumeral
    rw [h1]
    simp only
    rw [h2]
    simp only
    rw [h3]
    simp only
    rw [scanPositional_append decimalDigit_iff (fun c d h => decimal_char' h) (by decide) h hr]
    rfl
  | @hexadecimal p s m e hp h =>
    have head : ∀ c r, p ++ s ++ rest = c :: r → c.toLower = '0' := by
      intro c r he
      obtain ⟨a, p, rfl, ha, -⟩ := spellsWord_cons hp
      rw [← (List.cons.inj he).1]
      exact ha
    have h1 : scanWord ['i', 'n', 'f'] (p ++ s ++ rest) = none := scanWord_none fun c' r' he => by
      rw [head c' r' he]; decide
    have h2 : scanWord ['n', 'a', 'n'] (p ++ s ++ rest) = none := scanWord_none fun c' r' he => by
      rw [head c' r' he]; decide
    have h3 : scanWord ['0', 'x'] (p ++ s ++ rest) = some (s ++ rest) :=
      scanWord_iff.mpr ⟨p, List.append_assoc _ _ _, hp⟩
    unfold scanNumeral
    rw [h1]
    simp only
    rw [h2]
    simp only
    rw [h3]
    simp only
    rw [scanPositional_append hexadecimalDigit_iff (fun c d h => hexadecimal_char h) (by decide) h hr]
    rfl
  | inf h =>
    have h1 : scanWord ['i', 'n', 'f'] (s ++ rest) = some rest := scanWord_iff.mpr ⟨s, rfl, h⟩
    have h2 : scanWord ['i'] rest = none := scanWord_none fun c r hc => (separated_lower hr hc).1
    unfold scanNumeral
    rw [h1]
    simp only
    rw [h2]
  | infinity h =>
    obtain ⟨a, s, rfl, e1, h⟩ := spellsWord_cons h
    obtain ⟨b, s, rfl, e2, h⟩ := spellsWord_cons h
    obtain ⟨c, s, rfl, e3, h⟩ := spellsWord_cons h
    obtain ⟨d, s, rfl, e4, h⟩ := spellsWord_cons h
    obtain ⟨e, s, rfl, e5, h⟩ := spellsWord_cons h
    obtain ⟨f, s, rfl, e6, h⟩ := spellsWord_cons h
    obtain ⟨g, s, rfl, e7, h⟩ := spellsWord_cons h
    obtain ⟨k, s, rfl, e8, h⟩ := spellsWord_cons h
    cases s with
    | cons _ _ => cases h
    | nil =>
      have h1 : scanWord ['i', 'n', 'f'] ([a, b, c, d, e, f, g, k] ++ rest) = some ([d, e, f, g, k] ++ rest) :=
        scanWord_iff.mpr ⟨[a, b, c], rfl, by simp [SpellsWord, e1, e2, e3]⟩
      have h2 : scanWord ['i'] ([d, e, f, g, k] ++ rest) = some ([e, f, g, k] ++ rest) :=
        scanWord_iff.mpr ⟨[d], rfl, by simp [SpellsWord, e4]⟩
      have h3 : scanWord ['n', 'i', 't', 'y'] ([e, f, g, k] ++ rest) = some rest :=
        scanWord_iff.mpr ⟨[e, f, g, k], rfl, by simp [SpellsWord, e5, e6, e7, e8]⟩
      unfold scanNumeral
      rw [h1]
      simp only
      rw [h2]
      simp only
      rw [h3]
      rfl
  | nan h =>
    have h1 : scanWord ['i', 'n', 'f'] (s ++ rest) = none := scanWord_none fun c' r' he => by
      obtain ⟨a, s, rfl, ha, -⟩ := spellsWord_cons h
      rw [← (List.cons.inj he).1, ha]
      decide
    have h2 : scanWord ['n', 'a', 'n'] (s ++ rest) = some rest := scanWord_iff.mpr ⟨s, rfl, h⟩
    unfold scanNumeral
    rw [h1]
    simp only
    rw [h2]
    split
    · next he => exact ((separated_lower hr (Option.some.inj he)).2.2 rfl).elim
    · rfl
    · next he => cases he
  | @nanWith s t h ht =>
    have h1 : scanWord ['i', 'n', 'f'] (s ++ '(' :: (t ++ [')']) ++ rest) = none := scanWord_none fun c' r' he => by
      obtain ⟨a, s, rfl, ha, -⟩ := spellsWord_cons h
      rw [← (List.cons.inj he).1, ha]
      decide
    have h2 : scanWord ['n', 'a', 'n'] (s ++ '(' :: (t ++ [')']) ++ rest) = some ('(' :: (t ++ [')']) ++ rest) :=
      scanWord_iff.mpr ⟨s, List.append_assoc _ _ _, h⟩
    unfold scanNumeral
    rw [h1]
    simp only
    rw [h2]
    simp only [List.cons_append]
    rw [List.append_assoc, List.dropWhile_append_of_pos fun c hc => isNChar_iff.mpr (ht c hc)]
    rfl

theorem scanNumeral_split {s : List Char} {n : Numeral} (h : scanNumeral s = some n) :
    ∃ t rest, s = t ++ rest ∧ SpellsNumeral t n := by
  unfold scanNumeral at h
  split at h
  · next r h1 =>
    obtain ⟨u, rfl, hu⟩ := scanWord_iff.mp h1
    split at h
    · next r' h2 =>
      obtain ⟨u', rfl, hu'⟩ := scanWord_iff.mp h2
      obtain ⟨r'', h3, h4⟩ := Option.map_eq_some_iff.mp h
      subst h4
      obtain ⟨u'', rfl, hu''⟩ := scanWord_iff.mp h3
      refine ⟨u ++ u' ++ u'', r'', by simp, .infinity ?_⟩
      unfold SpellsWord at *
      rw [List.map_append, List.map_append, hu, hu', hu'']
      rfl
    · rw [← Option.some.inj h]
      exact ⟨u, r, rfl, .inf hu⟩
  · split at h
    · next r h2 =>
      obtain ⟨u, rfl, hu⟩ := scanWord_iff.mp h2
      split at h
      · next h3 =>
        rw [← Option.some.inj h]
        have h3 := beq_iff_eq.mp h3
        obtain ⟨q, hq⟩ : ∃ q, r.dropWhile isNChar = ')' :: q := by
          cases hd : r.dropWhile isNChar with
          | nil => rw [hd] at h3; cases h3
          | cons c q =>
            rw [hd] at h3
            exact ⟨q, by rw [Option.some.inj h3]⟩
        refine ⟨u ++ ('(' :: (r.takeWhile isNChar ++ [')'])), q, ?_, .nanWith hu fun c hc =>
          isNChar_iff.mp (List.mem_takeWhile_imp hc)⟩
        rw [List.append_assoc, List.cons_append, List.append_assoc, List.singleton_append, ← hq,
          List.takeWhile_append_dropWhile]
      · cases h
    · next r _ h2 =>
      obtain ⟨u, rfl, hu⟩ := scanWord_iff.mp h2
      rw [← Option.some.inj h]
      exact ⟨u, r, rfl, .nan hu⟩
    · split at h
      · next r h3 =>
        obtain ⟨u, rfl, hu⟩ := scanWord_iff.mp h3
        obtain ⟨⟨m, e⟩, h4, h5⟩ := Option.map_eq_some_iff.mp h
        subst h5
        obtain ⟨t, rest, rfl, ht⟩ := scanPositional_split hexadecimalDigit_iff h4
        exact ⟨u ++ t, rest, by simp, .hexadecimal hu ht⟩
      · obtain ⟨⟨m, e⟩, h4, h5⟩ := Option.map_eq_some_iff.mp h
        subst h5
        obtain ⟨t, rest, rfl, ht⟩ := scanPositional_split decimalDigit_iff h4
        exact ⟨t, rest, rfl, .decimal ht⟩

/-- The numeral starts with a character which is neither a space nor a sign. -/
theorem numeral_head {s : List Char} {n : Numeral} (h : SpellsNumeral s n) {rest : List Char} {c : Char} {r : List Char}
    (hc : s ++ rest = c :: r) : isSpace c = false ∧ c ≠ '+' ∧ c ≠ '-' := by
  have low : ∀ c : Char, (c.toLower = '0' ∨ c.toLower = 'i' ∨ c.toLower = 'n') →
      isSpace c = false ∧ c ≠ '+' ∧ c ≠ '-' := by
    intro c h
    have key : ∀ d : Char, d.toLower = d → (d ≠ '0' ∧ d ≠ 'i' ∧ d ≠ 'n') → c ≠ d := by
      rintro d hd ⟨h1, h2, h3⟩ rfl
      rw [hd] at h
      rcases h with h | h | h
      · exact h1 h
      · exact h2 h
      · exact h3 h
    refine ⟨?_, key _ (by decide) (by decide), key _ (by decide) (by decide)⟩
    unfold isSpace
    simp only [Bool.or_eq_false_iff, beq_eq_false_iff_ne]
    exact ⟨⟨⟨⟨⟨key _ (by decide) (by decide), key _ (by decide) (by decide)⟩, key _ (by decide) (by decide)⟩,
      key _ (by decide) (by decide)⟩, key _ (by decide) (by decide)⟩, key _ (by decide) (by decide)⟩
  have word : ∀ {w : Char} {ws s t : List Char}, SpellsWord (w :: ws) s → s ++ t = c :: r → c.toLower = w := by
    intro w ws s t h he
    cases s with
    | nil => cases h
    | cons a s =>
      rw [← (List.cons.inj he).1]
      exact (List.cons.inj h).1
  cases h with
  | decimal h =>
    obtain ⟨a, r', rfl, ha⟩ := decimal_head h
    rw [← (List.cons.inj hc).1]
    rcases ha with ⟨d, hd⟩ | rfl
    · exact ⟨(decimal_char hd).1, (decimal_char hd).2.1, (decimal_char hd).2.2.1⟩
    · decide
  | hexadecimal hp h =>
    rw [List.append_assoc] at hc
    exact low c (Or.inl (word hp hc))
  | inf h => exact low c (Or.inr (Or.inl (word h hc)))
  | infinity h => exact low c (Or.inr (Or.inl (word h hc)))
  | nan h => exact low c (Or.inr (Or.inr (word h hc)))
  | nanWith h _ =>
    rw [List.append_assoc] at hc
    exact low c (Or.inr (Or.inr (word h hc)))

theorem scanFloat_append {b s rest : List Char} {x : FloatLiteral} (hb : Blank b) (h : SpellsFloat s x)
    (hr : Separated rest) : scanFloat (b ++ s ++ rest) = some x := by
  obtain ⟨sign, t, rfl, hs, ht⟩ := h
  unfold scanFloat
  rw [List.append_assoc, List.append_assoc, dropWhile_blank hb, scanSign_append hs]
  · simp only
    rw [scanNumeral_append ht hr]
    rfl
  · exact fun c r hc => (numeral_head ht hc).2
  · intro c r hc
    rcases signed_head hs hc with rfl | rfl | hc
    · rfl
    · rfl
    · exact (numeral_head ht hc).1

theorem scanFloat_split {s : List Char} {x : FloatLiteral} (h : scanFloat s = some x) :
    ∃ b t rest, s = b ++ t ++ rest ∧ Blank b ∧ SpellsFloat t x := by
  obtain ⟨b, h1, hb⟩ := split_blank s
  obtain ⟨sign, h2, hs⟩ := scanSign_split (s.dropWhile isSpace)
  have h : (scanNumeral (scanSign (s.dropWhile isSpace)).2).map (fun n => (⟨(scanSign (s.dropWhile isSpace)).1, n⟩ :
    FloatLiteral)) = some x := h
  obtain ⟨n, h3, rfl⟩ := Option.map_eq_some_iff.mp h
  obtain ⟨t, rest, h4, ht⟩ := scanNumeral_split h3
  refine ⟨b, sign ++ t, rest, ?_, hb, sign, t, rfl, hs, ht⟩
  rw [List.append_assoc, List.append_assoc, ← h4, ← h2]
  exact h1

end Ctldl
