import Verif.Lemmas.Hom
import Verif.Spec.Oblivious

/-!
# Numbering all numbers of an object
-/

namespace Ctldl

variable {K K' : Type}

/-- From index `n` on, `x` takes the values in the list. -/
def Agree (x : Nat → K) (n : Nat) (l : List K) : Prop := ∀ i, ∀ h : i < l.length, x (n + i) = l[i]

theorem agree_append {x : Nat → K} {n : Nat} {a b : List K} :
    Agree x n (a ++ b) ↔ Agree x n a ∧ Agree x (n + a.length) b := by
  constructor
  · intro h
    refine ⟨fun i hi => ?_, fun i hi => ?_⟩
    · rw [h i (by rw [List.length_append]; omega), List.getElem_append_left hi]
    · rw [Nat.add_assoc, h (a.length + i) (by rw [List.length_append]; omega),
        List.getElem_append_right (by omega)]
      congr 1
      omega
  · intro h i hi
    by_cases hia : i < a.length
    · rw [h.1 i hia, List.getElem_append_left hia]
    · have hib : i - a.length < b.length := by rw [List.length_append] at hi; omega
      have := h.2 (i - a.length) hib
      rw [show n + a.length + (i - a.length) = n + i by omega] at this
      rw [this, List.getElem_append_right (by omega)]

/-- Objects containing numbers, with a numbering. -/
structure Numbering (S : Type → Type) where
  map : {α β : Type} → (α → β) → S α → S β
  numbers : {α : Type} → S α → List α
  label : S Unit → Nat → S Nat
  map_map : ∀ {α β γ : Type} (g : β → γ) (k : α → β) (s : S α), map g (map k s) = map (fun a => g (k a)) s
  numbers_map : ∀ {α β : Type} (g : α → β) (s : S α), numbers (map g s) = (numbers s).map g
  law : ∀ {K : Type} (s : S K) (x : Nat → K) (n : Nat), Agree x n (numbers s) →
    map x (label (map (fun _ => ()) s) n) = s

namespace Numbering

variable {S : Type → Type} (N : Numbering S)

/-- How many numbers there are. -/
def count (s : S Unit) : Nat := (N.numbers s).length

theorem count_shape (s : S K) : N.count (N.map (fun _ => ()) s) = (N.numbers s).length := by
  rw [count, N.numbers_map, List.length_map]

/-- Number several objects one after the other. -/
def labels : List (S Unit) → Nat → List (S Nat)
  | [], _ => []
  | s :: l, n => N.label s n :: labels l (n + N.count s)

theorem labels_law (l : List (S K)) (x : Nat → K) (n : Nat) (h : Agree x n (l.flatMap N.numbers)) :
    (N.labels (l.map (N.map fun _ => ())) n).map (N.map x) = l := by
  induction l generalizing n with
  | nil => rfl
  | cons s l ih =>
    rw [List.flatMap_cons, agree_append] at h
    rw [List.map_cons, labels, List.map_cons, N.law s x n h.1, N.count_shape, ih _ h.2]

/-- Lists of numbered objects. -/
def list : Numbering (fun α => List (S α)) where
  map g := List.map (N.map g)
  numbers l := l.flatMap N.numbers
  label := N.labels
  map_map g k l := by rw [List.map_map]; exact List.map_congr_left fun s _ => N.map_map g k s
  numbers_map g l := by
    induction l with
    | nil => rfl
    | cons s l ih => rw [List.map_cons, List.flatMap_cons, List.flatMap_cons, List.map_append, N.numbers_map, ih]
  law l x n h := N.labels_law l x n h

/-- Two numbered objects. -/
def pair {T : Type → Type} (M : Numbering T) : Numbering (fun α => S α × T α) where
  map g st := (N.map g st.1, M.map g st.2)
  numbers st := N.numbers st.1 ++ M.numbers st.2
  label st n := (N.label st.1 n, M.label st.2 (n + N.count st.1))
  map_map g k st := Prod.ext (N.map_map g k st.1) (M.map_map g k st.2)
  numbers_map g st := by rw [N.numbers_map, M.numbers_map, List.map_append]
  law st x n h := by
    obtain ⟨h1, h2⟩ := agree_append.mp h
    exact Prod.ext (N.law _ x n h1) (by rw [N.count_shape]; exact M.law _ x _ h2)

/-- Objects with the same content. -/
def iso {R : Type → Type} (content : {α : Type} → R α → S α)
    (object : {α : Type} → S α → R α)
    (map : {α β : Type} → (α → β) → R α → R β) 
    (hc : ∀ {α β : Type} (g : α → β) (r : R α), content (map g r) = N.map g (content r))
    (ho : ∀ {α β : Type} (g : α → β) (s : S α), map g (object s) = object (N.map g s))
    (hr : ∀ {α : Type} (r : R α), object (content r) = r) : Numbering R where
  map := map
  numbers r := N.numbers (content r)
  label r n := object (N.label (content r) n)
  map_map g k r := by rw [← hr (map g (map k r)), hc, hc, N.map_map, ← hc, hr]
  numbers_map g r := by rw [hc, N.numbers_map]
  law r x n h := by rw [ho, hc, N.law _ x n h, hr]

end Numbering

/-- A single list of numbers. -/
def numberingList : Numbering List where
  map := List.map
  numbers l := l
  label l n := List.range' n l.length
  map_map _ _ _ := List.map_map ..
  numbers_map _ _ := rfl
  law s x n h := by
    refine List.ext_getElem (by simp) fun i h1 h2 => ?_
    rw [List.getElem_map, List.getElem_range', Nat.one_mul]
    exact h i h2

/-- Diagonal blocks. -/
def numberingDiag : Numbering DiagFactor where
  map g f := f.map g
  numbers f := f.numbers
  label f n := ⟨f.sparsity, f.permutation, numberingList.label f.L n, numberingList.label f.D (n + f.L.length)⟩
  map_map g k f := congr (congrArg (DiagFactor.mk f.sparsity f.permutation) (List.map_map ..)) (List.map_map ..)
  numbers_map g f := (List.map_append ..).symm
  law f x n h := by
    obtain ⟨h1, h2⟩ := agree_append.mp h
    have e1 := numberingList.law f.L x n h1
    have e2 := numberingList.law f.D x _ h2
    obtain ⟨s, p, L, D⟩ := f
    simp only [DiagFactor.map, List.length_map]
    exact congr (congrArg (DiagFactor.mk s p) e1) e2

/-- Off-diagonal blocks. -/
def numberingSub : Numbering SubFactor where
  map g f := f.map g
  numbers f := f.numbers
  label f n := ⟨f.sparsity, f.permutationRow, f.permutationCol, numberingList.label f.L n⟩
  map_map g k f := congrArg (SubFactor.mk f.sparsity f.permutationRow f.permutationCol) (List.map_map ..)
  numbers_map _ _ := rfl
  law f x n h := by
    have e1 := numberingList.law f.L x n h
    obtain ⟨s, p, q, L⟩ := f
    exact congrArg (SubFactor.mk s p q) e1

/-- Matrices. -/
def numberingMat : Numbering MatIn where
  map g f := f.map g
  numbers f := f.numbers
  label f n := ⟨f.sparsity, numberingList.label f.values n⟩
  map_map g k f := congrArg (MatIn.mk f.sparsity) (List.map_map ..)
  numbers_map _ _ := rfl
  law f x n h := by
    have e1 := numberingList.law f.values x n h
    obtain ⟨s, L⟩ := f
    exact congrArg (MatIn.mk s) e1

/-- Arrowhead factors. -/
def numberingArrowheadFactor : Numbering ArrowheadFactor :=
  (numberingDiag.pair (numberingSub.pair (numberingSub.pair (numberingDiag.list.pair (numberingSub.list.pair (numberingSub.pair (numberingDiag.pair (numberingSub.pair (numberingSub.list.pair (numberingDiag)))))))))).iso
    (fun r => (r.startDiag, r.startNext, r.startOuter, r.tridiagDiag, r.tridiagSubdiag, r.linkPrev, r.linkDiag, r.linkNext, r.outerSubdiag, r.outerDiag))
    (fun s => ⟨s.1, s.2.1, s.2.2.1, s.2.2.2.1, s.2.2.2.2.1, s.2.2.2.2.2.1, s.2.2.2.2.2.2.1, s.2.2.2.2.2.2.2.1, s.2.2.2.2.2.2.2.2.1, s.2.2.2.2.2.2.2.2.2⟩)
    (fun g r => r.map g) (fun _ _ => rfl) (fun _ _ => rfl) (fun _ => rfl)

/-- Arrowhead matrices. -/
def numberingArrowheadMatrix : Numbering ArrowheadMatrix :=
  (numberingMat.pair (numberingMat.pair (numberingMat.pair (numberingMat.list.pair (numberingMat.list.pair (numberingMat.pair (numberingMat.pair (numberingMat.pair (numberingMat.list.pair (numberingMat)))))))))).iso
    (fun r => (r.startDiag, r.startNext, r.startOuter, r.tridiagDiag, r.tridiagSubdiag, r.linkPrev, r.linkDiag, r.linkNext, r.outerSubdiag, r.outerDiag))
    (fun s => ⟨s.1, s.2.1, s.2.2.1, s.2.2.2.1, s.2.2.2.2.1, s.2.2.2.2.2.1, s.2.2.2.2.2.2.1, s.2.2.2.2.2.2.2.1, s.2.2.2.2.2.2.2.2.1, s.2.2.2.2.2.2.2.2.2⟩)
    (fun g r => r.map g) (fun _ _ => rfl) (fun _ _ => rfl) (fun _ => rfl)

/-- Blocked vectors. -/
def numberingArrowheadVector : Numbering ArrowheadVector :=
  (numberingList.pair (numberingList.list.pair (numberingList.pair (numberingList)))).iso
    (fun r => (r.start, r.tridiag, r.link, r.outer))
    (fun s => ⟨s.1, s.2.1, s.2.2.1, s.2.2.2⟩)
    (fun g r => r.map g) (fun _ _ => rfl) (fun _ _ => rfl) (fun _ => rfl)

theorem Expr.eval_hom [Zero K] [Sub K] [Mul K] [Div K] (regularize : K → Nat → K) (x : List K) :
    Hom (Expr.eval regularize x) := ⟨rfl, fun _ _ => rfl, fun _ _ => rfl, fun _ _ => rfl⟩

namespace Numbering

variable {S T : Type → Type} (N : Numbering S) (M : Numbering T)

/-- The given numbers of an object as expressions. -/
def inputs (s : S Unit) : S Expr := N.map Expr.input (N.label s 0)

theorem inputs_eval [Zero K] [Sub K] [Mul K] [Div K] (regularize : K → Nat → K) (s : S K) :
    N.map (Expr.eval regularize (N.numbers s)) (N.inputs (N.map (fun _ => ()) s)) = s := by
  rw [inputs, N.map_map]
  refine N.law s (fun k => (N.numbers s).getD k 0) 0 fun i hi => ?_
  dsimp only
  rw [Nat.zero_add, List.getD_eq_getElem?_getD, List.getElem?_eq_getElem hi]
  rfl

end Numbering

end Ctldl
