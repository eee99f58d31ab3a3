import Verif.Model.Basic
import Mathlib.Tactic.Common

/-! # Reasoning about the outcome monad: success with a postcondition, loop rules -/

namespace Ctldl

/-- The computation succeeds and its result satisfies `P`. -/
def Sat {α : Type _} (m : Res α) (P : α → Prop) : Prop := ∃ a, m = .ok a ∧ P a

/-- Both computations succeed and their results are related by `R`. -/
def Rel {α β : Type _} (m : Res α) (m' : Res β) (R : α → β → Prop) : Prop :=
  ∃ a b, m = .ok a ∧ m' = .ok b ∧ R a b

section
variable {α β γ δ σ τ : Type _}

theorem ok_bind (a : α) (f : α → Res β) : ((Except.ok a : Res α) >>= f) = f a := rfl

theorem error_bind (e : Err) (f : α → Res β) : ((Except.error e : Res α) >>= f) = .error e := rfl

theorem pure_eq_ok (a : α) : (pure a : Res α) = .ok a := rfl

theorem Sat.ok {a : α} {P : α → Prop} (h : P a) : Sat (.ok a : Res α) P := ⟨a, rfl, h⟩

theorem Sat.pure {a : α} {P : α → Prop} (h : P a) : Sat (pure a : Res α) P := ⟨a, rfl, h⟩

theorem Sat.bind {m : Res α} {f : α → Res β} {P : α → Prop} {Q : β → Prop}
    (hm : Sat m P) (hf : ∀ a, P a → Sat (f a) Q) : Sat (m >>= f) Q := by
  obtain ⟨a, rfl, ha⟩ := hm
  exact hf a ha

theorem Sat.mono {m : Res α} {P Q : α → Prop} (hm : Sat m P) (h : ∀ a, P a → Q a) : Sat m Q := by
  obtain ⟨a, rfl, ha⟩ := hm
  exact ⟨a, rfl, h a ha⟩

theorem Sat.of_eq {m : Res α} {a : α} {P : α → Prop} (h : m = .ok a) (hP : P a) : Sat m P := ⟨a, h, hP⟩

theorem Sat.and {m : Res α} {P Q : α → Prop} (h : Sat m P) (h' : Sat m Q) :
    Sat m (fun a => P a ∧ Q a) := by
  obtain ⟨a, rfl, ha⟩ := h
  obtain ⟨b, hb, hb'⟩ := h'
  cases hb
  exact ⟨a, rfl, ha, hb'⟩

theorem Sat.of_ok {m : Res α} {a : α} {P : α → Prop} (h : Sat m P) (hm : m = .ok a) : P a := by
  obtain ⟨b, hb, hb'⟩ := h
  rw [hm] at hb
  cases hb
  exact hb'

theorem Rel.ok {a : α} {b : β} {R : α → β → Prop} (h : R a b) :
    Rel (.ok a : Res α) (.ok b : Res β) R := ⟨a, b, rfl, rfl, h⟩

theorem Rel.pure {a : α} {b : β} {R : α → β → Prop} (h : R a b) :
    Rel (pure a : Res α) (pure b : Res β) R := ⟨a, b, rfl, rfl, h⟩

theorem Rel.bind {m : Res α} {m' : Res β} {f : α → Res γ} {g : β → Res δ} {R : α → β → Prop}
    {Q : γ → δ → Prop} (hm : Rel m m' R) (hf : ∀ a b, R a b → Rel (f a) (g b) Q) :
    Rel (m >>= f) (m' >>= g) Q := by
  obtain ⟨a, b, rfl, rfl, h⟩ := hm
  exact hf a b h

theorem Rel.mono {m : Res α} {m' : Res β} {R Q : α → β → Prop} (hm : Rel m m' R)
    (h : ∀ a b, R a b → Q a b) : Rel m m' Q := by
  obtain ⟨a, b, rfl, rfl, hR⟩ := hm
  exact ⟨a, b, rfl, rfl, h a b hR⟩

theorem Sat.rel {m : Res α} {P : α → Prop} (h : Sat m P) : Rel m m (fun a b => a = b ∧ P a) := by
  obtain ⟨a, rfl, ha⟩ := h
  exact ⟨a, a, rfl, rfl, rfl, ha⟩

/-! ### Elementary operations -/

@[simp] theorem rd_eq_ok {v : List α} {i : Nat} {a : α} : rd v i = .ok a ↔ v[i]? = some a := by
  unfold rd
  cases v[i]? <;> simp

theorem rd_ok {v : List α} {i : Nat} (h : i < v.length) : rd v i = .ok v[i] := by
  simp [rd, h]

theorem rd_of_getElem? {v : List α} {i : Nat} {a : α} (h : v[i]? = some a) : rd v i = .ok a := by
  simp [h]

theorem rd_error {v : List α} {i : Nat} (h : ¬ i < v.length) : rd v i = .error .ub := by
  simp [rd, List.getElem?_eq_none (Nat.le_of_not_lt h)]

theorem wr_ok {v : List α} {i : Nat} {a : α} (h : i < v.length) : wr v i a = .ok (v.set i a) := by
  simp [wr, h]

theorem wr_eq_ok {v w : List α} {i : Nat} {a : α} :
    wr v i a = .ok w ↔ i < v.length ∧ w = v.set i a := by
  unfold wr
  split
  · simp [*, eq_comm]
  · simp [*]

theorem pre_true {c : Bool} (h : c = true) : pre c = .ok () := by simp [pre, h]
theorem assert_true {c : Bool} (h : c = true) : assert' c = .ok () := by simp [assert', h]
theorem staticAssert_true {c : Bool} (h : c = true) : staticAssert c = .ok () := by simp [staticAssert, h]

@[simp] theorem pre_eq_ok {c : Bool} {u : Unit} : pre c = .ok u ↔ c = true := by
  unfold pre; split <;> simp [*]
@[simp] theorem assert_eq_ok {c : Bool} {u : Unit} : assert' c = .ok u ↔ c = true := by
  unfold assert'; split <;> simp [*]
@[simp] theorem staticAssert_eq_ok {c : Bool} {u : Unit} : staticAssert c = .ok u ↔ c = true := by
  unfold staticAssert; split <;> simp [*]

theorem usub_ok {a b : Nat} (h : b ≤ a) : usub a b = .ok (a - b) := by simp [usub, h]
theorem udiv_ok {a b : Nat} (h : b ≠ 0) : udiv a b = .ok (a / b) := by simp [udiv, h]
theorem umod_ok {a b : Nat} (h : b ≠ 0) : umod a b = .ok (a % b) := by simp [umod, h]

theorem Sat.rd {v : List α} {i : Nat} (h : i < v.length) : Sat (rd v i) (fun a => v[i]? = some a) :=
  ⟨v[i], rd_ok h, by simp [h]⟩

theorem Sat.wr {v : List α} {i : Nat} {a : α} (h : i < v.length) :
    Sat (wr v i a) (fun w => w = v.set i a) := ⟨_, wr_ok h, rfl⟩

theorem bind_eq_ok {m : Res α} {f : α → Res β} {b : β} :
    (m >>= f) = .ok b ↔ ∃ a, m = .ok a ∧ f a = .ok b := by
  cases m with
  | error e => simp [error_bind]
  | ok a => simp [ok_bind]

/-! ### Loops -/

/-- Loop rule: the invariant may depend on the elements processed so far. -/
theorem foldlM_inv {f : σ → α → Res σ} {l : List α} {init : σ} (I : List α → σ → Prop)
    (h0 : I [] init)
    (hstep : ∀ pre a suf s, l = pre ++ a :: suf → I pre s → Sat (f s a) (I (pre ++ [a]))) :
    Sat (l.foldlM f init) (I l) := by
  suffices h : ∀ suf pre s, l = pre ++ suf → I pre s → Sat (suf.foldlM f s) (I l) from
    h l [] init rfl h0
  intro suf
  induction suf with
  | nil => intro pre s hl hI; simp at hl; subst hl; exact Sat.pure hI
  | cons a suf ih =>
    intro pre s hl hI
    rw [List.foldlM_cons]
    refine Sat.bind (hstep pre a suf s hl hI) fun s' hs' => ih (pre ++ [a]) s' ?_ hs'
    simp [hl]

/-- Loop rule for `for (i = 0; i < n; ++i)`. -/
theorem foldlM_range_inv {f : σ → Nat → Res σ} {n : Nat} {init : σ} (I : Nat → σ → Prop)
    (h0 : I 0 init) (hstep : ∀ i s, i < n → I i s → Sat (f s i) (I (i + 1))) :
    Sat ((List.range n).foldlM f init) (I n) := by
  have := foldlM_inv (f := f) (l := List.range n) (init := init) (fun pre s => I pre.length s) h0
    (by
      intro pre a suf s hl hI
      have ha : a = pre.length := by
        have h1 : (List.range n)[pre.length]? = some a := by rw [hl]; simp
        rw [List.getElem?_eq_some_iff] at h1
        obtain ⟨h2, h3⟩ := h1
        simpa using h3.symm
      have hn : pre.length < n := by
        have := congrArg List.length hl
        simp at this; omega
      subst ha
      simpa using hstep _ s hn hI)
  simpa using this

/-- Loop rule for `for (i = b; i < b + n; ++i)`. -/
theorem foldlM_range'_inv {f : σ → Nat → Res σ} {b n : Nat} {init : σ} (I : Nat → σ → Prop)
    (h0 : I b init) (hstep : ∀ i s, b ≤ i → i < b + n → I i s → Sat (f s i) (I (i + 1))) :
    Sat ((List.range' b n).foldlM f init) (I (b + n)) := by
  rw [List.range'_eq_map_range, List.foldlM_map]
  exact foldlM_range_inv (fun i s => I (b + i) s) h0
    (fun i s hi hI => hstep (b + i) s (by omega) (by omega) hI)

theorem foldlM_rel {f : σ → α → Res σ} {g : τ → α → Res τ} {l : List α} {init : σ} {init' : τ}
    (I : List α → σ → τ → Prop) (h0 : I [] init init')
    (hstep : ∀ pre a suf s t, l = pre ++ a :: suf → I pre s t → Rel (f s a) (g t a) (I (pre ++ [a]))) :
    Rel (l.foldlM f init) (l.foldlM g init') (I l) := by
  suffices h : ∀ suf pre s t, l = pre ++ suf → I pre s t →
      Rel (suf.foldlM f s) (suf.foldlM g t) (I l) from h l [] init init' rfl h0
  intro suf
  induction suf with
  | nil => intro pre s t hl hI; simp at hl; subst hl; exact Rel.pure hI
  | cons a suf ih =>
    intro pre s t hl hI
    rw [List.foldlM_cons, List.foldlM_cons]
    refine Rel.bind (hstep pre a suf s t hl hI) fun s' t' hs' => ih (pre ++ [a]) s' t' ?_ hs'
    simp [hl]

theorem foldlM_range_rel {f : σ → Nat → Res σ} {g : τ → Nat → Res τ} {n : Nat} {init : σ} {init' : τ}
    (I : Nat → σ → τ → Prop) (h0 : I 0 init init')
    (hstep : ∀ i s t, i < n → I i s t → Rel (f s i) (g t i) (I (i + 1))) :
    Rel ((List.range n).foldlM f init) ((List.range n).foldlM g init') (I n) := by
  have := foldlM_rel (f := f) (g := g) (l := List.range n) (init := init) (init' := init')
    (fun pre s t => I pre.length s t) h0
    (by
      intro pre a suf s t hl hI
      have ha : a = pre.length := by
        have h1 : (List.range n)[pre.length]? = some a := by rw [hl]; simp
        rw [List.getElem?_eq_some_iff] at h1
        obtain ⟨h2, h3⟩ := h1
        simpa using h3.symm
      have hn : pre.length < n := by
        have := congrArg List.length hl
        simp at this; omega
      subst ha
      simpa using hstep _ s t hn hI)
  simpa using this

theorem foldlM_range'_rel {f : σ → Nat → Res σ} {g : τ → Nat → Res τ} {b n : Nat} {init : σ}
    {init' : τ} (I : Nat → σ → τ → Prop) (h0 : I b init init')
    (hstep : ∀ i s t, b ≤ i → i < b + n → I i s t → Rel (f s i) (g t i) (I (i + 1))) :
    Rel ((List.range' b n).foldlM f init) ((List.range' b n).foldlM g init') (I (b + n)) := by
  rw [List.range'_eq_map_range, List.foldlM_map, List.foldlM_map]
  exact foldlM_range_rel (fun i s t => I (b + i) s t) h0
    (fun i s t hi hI => hstep (b + i) s t (by omega) (by omega) hI)

/-- Loop rule for `for (i = n; i-- > 0;)`; the invariant is indexed by the number of remaining rounds. -/
theorem foldlM_range_reverse_inv {f : σ → Nat → Res σ} {n : Nat} {init : σ} (I : Nat → σ → Prop)
    (h0 : I n init) (hstep : ∀ i s, i < n → I (i + 1) s → Sat (f s i) (I i)) :
    Sat ((List.range n).reverse.foldlM f init) (I 0) := by
  induction n generalizing init with
  | zero => exact Sat.pure h0
  | succ n ih =>
    rw [List.range_succ, List.reverse_append, List.reverse_singleton, List.singleton_append,
      List.foldlM_cons]
    exact Sat.bind (hstep n init (by omega) h0) fun s hs => ih hs fun i s hi => hstep i s (by omega)

theorem foldlM_range_reverse_rel {f : σ → Nat → Res σ} {g : τ → Nat → Res τ} {n : Nat} {init : σ}
    {init' : τ} (I : Nat → σ → τ → Prop) (h0 : I n init init')
    (hstep : ∀ i s t, i < n → I (i + 1) s t → Rel (f s i) (g t i) (I i)) :
    Rel ((List.range n).reverse.foldlM f init) ((List.range n).reverse.foldlM g init') (I 0) := by
  induction n generalizing init init' with
  | zero => exact Rel.pure h0
  | succ n ih =>
    rw [List.range_succ, List.reverse_append, List.reverse_singleton, List.singleton_append,
      List.foldlM_cons, List.foldlM_cons]
    exact Rel.bind (hstep n init init' (by omega) h0) fun s t hs =>
      ih hs fun i s t hi => hstep i s t (by omega)

/-- A loop that is a pure fold in the end. -/
theorem foldlM_eq_foldl {f : σ → α → Res σ} {g : σ → α → σ} {l : List α} {init : σ}
    (P : σ → Prop) (h0 : P init) (h : ∀ s a, a ∈ l → P s → f s a = .ok (g s a) ∧ P (g s a)) :
    l.foldlM f init = .ok (l.foldl g init) := by
  induction l generalizing init with
  | nil => rfl
  | cons a l ih =>
    obtain ⟨h1, h2⟩ := h init a (by simp) h0
    rw [List.foldlM_cons, h1, ok_bind, List.foldl_cons]
    exact ih h2 fun s b hb => h s b (by simp [hb])

theorem mapM_ok {f : α → Res β} {g : α → β} {l : List α} (h : ∀ a ∈ l, f a = .ok (g a)) :
    l.mapM f = .ok (l.map g) := by
  induction l with
  | nil => rfl
  | cons a l ih =>
    rw [List.mapM_cons, h a (by simp), ih fun b hb => h b (by simp [hb])]
    rfl

end

end Ctldl
