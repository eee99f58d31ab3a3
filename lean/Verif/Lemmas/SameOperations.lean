import Verif.Lemmas.ForwardRows

/-! # Two factorizations which perform the same operations -/

namespace Ctldl

section

variable {ι κ K : Type} [Sub K] [Mul K] [Div K]

/-- One row of the up-looking method; `num` lists the common entries of two rows, `piv` the entries of a row. -/
def UpAbs (has : ι → ι → Prop) (num : ι → ι → List ι) (piv : ι → List ι) (A l : ι → ι → K) (d : ι → K)
    (reg : ι → K → K) (x : ι) : Prop :=
  ∃ w : ι → K, (∀ y, has x y → w y = subAll (num x y) (fun z => l y z * w z) (A x y) ∧ l x y = w y / d y) ∧
    d x = reg x (subAll (piv x) (fun z => w z * (w z / d z)) (A x x))

/-- One row of the entry-wise method. -/
def EntryAbs (has : ι → ι → Prop) (num : ι → ι → List ι) (piv : ι → List ι) (A l : ι → ι → K) (d : ι → K)
    (reg : ι → K → K) (x : ι) : Prop :=
  (∀ y, has x y → l x y = subAll (num x y) (fun z => l x z * l y z * d z) (A x y) / d y) ∧
    d x = reg x (subAll (piv x) (fun z => l x z * l x z * d z) (A x x))

/-- One row of a method. -/
def RowAbs (method : Method) (has : ι → ι → Prop) (num : ι → ι → List ι) (piv : ι → List ι) (A l : ι → ι → K) (d : ι → K)
    (reg : ι → K → K) (x : ι) : Prop :=
  match method with
  | .upLooking => UpAbs has num piv A l d reg x
  | .entryWise => EntryAbs has num piv A l d reg x

/-- The rows `x` of one matrix are the rows `g x` of another one, with the same entries in the same order. -/
structure Placed (S : ι → Prop) (g : ι → Nat) (has : ι → ι → Prop) (num : ι → ι → List ι) (piv : ι → List ι)
    (has' : Nat → Nat → Prop) (num' : Nat → Nat → List Nat) (piv' : Nat → List Nat) : Prop where
  entry : ∀ {x y}, S x → has x y → S y ∧ g y < g x ∧ has' (g x) (g y)
  num : ∀ {x y}, S x → has x y → num' (g x) (g y) = (num x y).map g ∧ ∀ z ∈ num x y, has x z ∧ has y z
  piv : ∀ {x}, S x → piv' (g x) = (piv x).map g ∧ ∀ z ∈ piv x, has x z

variable {S : ι → Prop} {g : ι → Nat} {has : ι → ι → Prop} {num : ι → ι → List ι} {piv : ι → List ι}
  {has' : Nat → Nat → Prop} {num' : Nat → Nat → List Nat} {piv' : Nat → List Nat} {A l : ι → ι → K} {d : ι → K}
  {reg : ι → K → K} {A' l' : Nat → Nat → K} {d' : Nat → K} {reg' : Nat → K → K}

omit [Mul K] [Div K] in
theorem subAll_map_congr {κ : Type} (g : ι → κ) (ks : List ι) {t : κ → K} {u : ι → K} (h : ∀ z ∈ ks, t (g z) = u z) (a : K) :
    subAll (ks.map g) t a = subAll ks u a := by
  induction ks generalizing a with
  | nil => rfl
  | cons k ks ih =>
    show subAll (ks.map g) t (a - t (g k)) = subAll ks u (a - u k)
    rw [h k List.mem_cons_self]
    exact ih (fun z hz => h z (List.mem_cons_of_mem _ hz)) _

/-- The entries and pivots are the same. -/
theorem Placed.same (hP : Placed S g has num piv has' num' piv') {method : Method}
    (h : ∀ x, S x → RowAbs method has num piv A l d reg x)
    (h' : ∀ x, S x → RowAbs method has' num' piv' A' l' d' reg' (g x))
    (hA : ∀ {x y}, S x → has x y → A' (g x) (g y) = A x y) (hD : ∀ {x}, S x → A' (g x) (g x) = A x x)
    (hreg : ∀ {x}, S x → reg' (g x) = reg x) (x : ι) (hx : S x) :
    (∀ y, has x y → l' (g x) (g y) = l x y) ∧ d' (g x) = d x := by
  induction hn : g x using Nat.strong_induction_on generalizing x with
  | _ n ih =>
    subst hn
    have ih' : ∀ y, has x y → (∀ z, has y z → l' (g y) (g z) = l y z) ∧ d' (g y) = d y := fun y hy =>
      ih (g y) (hP.entry hx hy).2.1 y (hP.entry hx hy).1 rfl
    obtain ⟨p1, p2⟩ := hP.piv hx
    cases method with
    | upLooking =>
      obtain ⟨w, h1, h2⟩ := h x hx
      obtain ⟨w', h1', h2'⟩ := h' x hx
      have hw : ∀ y, has x y → w' (g y) = w y := by
        intro y
        induction hn : g y using Nat.strong_induction_on generalizing y with
        | _ n ihy =>
          intro hy
          subst hn
          obtain ⟨n1, n2⟩ := hP.num hx hy
          obtain ⟨e1, -, e3⟩ := hP.entry hx hy
          rw [(h1 y hy).1, (h1' _ e3).1, n1, hA hx hy]
          refine subAll_map_congr g _ (fun z hz => ?_) _
          obtain ⟨z1, z2⟩ := n2 z hz
          rw [(ih' y hy).1 z z2, ihy (g z) (hP.entry e1 z2).2.1 z rfl z1]
      refine ⟨fun y hy => ?_, ?_⟩
      · rw [(h1 y hy).2, (h1' _ (hP.entry hx hy).2.2).2, hw y hy, (ih' y hy).2]
      · rw [h2, h2', p1, hD hx, hreg hx]
        congr 1
        refine subAll_map_congr g _ (fun z hz => ?_) _
        rw [hw z (p2 z hz), (ih' z (p2 z hz)).2]
    | entryWise =>
      obtain ⟨h1, h2⟩ := h x hx
      obtain ⟨h1', h2'⟩ := h' x hx
      have hl : ∀ y, has x y → l' (g x) (g y) = l x y := by
        intro y
        induction hn : g y using Nat.strong_induction_on generalizing y with
        | _ n ihy =>
          intro hy
          subst hn
          obtain ⟨n1, n2⟩ := hP.num hx hy
          obtain ⟨e1, -, e3⟩ := hP.entry hx hy
          rw [h1 y hy, h1' _ e3, n1, hA hx hy, (ih' y hy).2]
          congr 1
          refine subAll_map_congr g _ (fun z hz => ?_) _
          obtain ⟨z1, z2⟩ := n2 z hz
          rw [(ih' y hy).1 z z2, ihy (g z) (hP.entry e1 z2).2.1 z rfl z1, (ih' z z1).2]
      refine ⟨hl, ?_⟩
      rw [h2, h2', p1, hD hx, hreg hx]
      congr 1
      refine subAll_map_congr g _ (fun z hz => ?_) _
      rw [hl z (p2 z hz), (ih' z (p2 z hz)).2]

/-- Forward substitutions compute the same. -/
theorem Placed.forward (hP : Placed S g has num piv has' num' piv') {v b : ι → K} {v' b' : Nat → K}
    (h : ∀ x, S x → v x = subAll (piv x) (fun z => l x z * v z) (b x))
    (h' : ∀ x, S x → v' (g x) = subAll (piv' (g x)) (fun z => l' (g x) z * v' z) (b' (g x)))
    (hl : ∀ x, S x → ∀ y, has x y → l' (g x) (g y) = l x y) (hb : ∀ x, S x → b' (g x) = b x) (x : ι) (hx : S x) :
    v' (g x) = v x := by
  induction hn : g x using Nat.strong_induction_on generalizing x with
  | _ n ih =>
    subst hn
    obtain ⟨p1, p2⟩ := hP.piv hx
    rw [h x hx, h' x hx, p1, hb x hx]
    refine subAll_map_congr g _ (fun z hz => ?_) _
    obtain ⟨e1, e2, -⟩ := hP.entry hx (p2 z hz)
    rw [hl x hx z (p2 z hz), ih (g z) e2 z e1 rfl]

/-- Backward substitutions compute the same. -/
theorem Placed.backward (hP : Placed S g has num piv has' num' piv') {n : Nat} (hn : ∀ x, S x → g x < n)
    {down : ι → List ι} {down' : Nat → List Nat}
    (hd : ∀ x, S x → down' (g x) = (down x).map g ∧ ∀ z ∈ down x, S z ∧ has z x) {v b : ι → K} {v' b' : Nat → K}
    (h : ∀ x, S x → v x = subAll (down x) (fun z => l z x * v z) (b x))
    (h' : ∀ x, S x → v' (g x) = subAll (down' (g x)) (fun z => l' z (g x) * v' z) (b' (g x)))
    (hl : ∀ x, S x → ∀ y, has x y → l' (g x) (g y) = l x y) (hb : ∀ x, S x → b' (g x) = b x) (x : ι) (hx : S x) :
    v' (g x) = v x := by
  induction hm : n - g x using Nat.strong_induction_on generalizing x with
  | _ m ih =>
    subst hm
    obtain ⟨p1, p2⟩ := hd x hx
    rw [h x hx, h' x hx, p1, hb x hx]
    refine subAll_map_congr g _ (fun z hz => ?_) _
    obtain ⟨z1, z2⟩ := p2 z hz
    obtain ⟨-, e2, -⟩ := hP.entry z1 z2
    have := hn x hx
    have := hn z z1
    rw [hl z z1 x z2, ih (n - g z) (by omega) z z1 rfl]

end

end Ctldl
