/-
The ion features from the hypernetted chain scheme, /repo/src/jaxrts/models.py 763-1206, over the real numbers.
Units are not modelled.
-/
import Verif.Model.StaticSf
import Verif.Model.Potential

set_option autoImplicit false

namespace Verif.HncFeat

open Real Verif.Hnc Verif.Ssf Verif.Interp Verif.Expt Verif.Pot

/-- The attributes of the models, models.py 784-829 and 964-998: the number of points is `2 ** pot`. -/
structure Settings where
  rmin : ℝ
  rmax : ℝ
  pot : ℕ
  mix : ℝ
  tmult : List ℝ
  maxSize : ℕ

/-- models.py 838-840 and 1029-1031 `r`. -/
noncomputable def Settings.r (c : Settings) : ℕ → ℝ := rGrid (2 ^ c.pot) c.rmin c.rmax

/-- models.py 842-847 and 1033-1038 `k`. -/
noncomputable def Settings.k (c : Settings) : ℕ → ℝ := kGrid (2 ^ c.pot) c.r

/-- hypernetted_chain.py 690-695 `hnc_interp`, for structure factors on the grid. -/
noncomputable def hncInterp {m : ℕ} (c : Settings) (S : ℕ → Matrix (Fin m) (Fin m) ℝ) (k : ℝ) (a b : Fin m) : ℝ :=
  interp (2 ^ c.pot) c.k (fun i => S i a b) k

/-- models.py 854-881: the arguments of `pair_distribution_function_HNC` in `OnePotentialHNCIonFeat`. -/
noncomputable def oneInput {m : ℕ} (c : Settings) (kB : ℝ) (Vs Vlk : Fin m → Fin m → ℕ → ℝ) (T : Fin m → Fin m → ℝ)
    (n : Fin m → ℝ) : Input m :=
  { N := 2 ^ c.pot, r := c.r, Vs := Vs, Vlk := Vlk, T := T, n := n, mix := c.mix, maxSize := c.maxSize, kB := kB }

/-- models.py 849-896 `OnePotentialHNCIonFeat.S_ii` returns `S` (without `SVT`). -/
def OneReturns {m : ℕ} (c : Settings) (kB : ℝ) (Vs Vlk : Fin m → Fin m → ℕ → ℝ) (T : Fin m → Fin m → ℝ) (n : Fin m → ℝ)
    (k : ℝ) (S : Fin m → Fin m → ℝ) : Prop :=
  ∃ g it, (oneInput c kB Vs Vlk T n).Returns c.tmult g it ∧ S = hncInterp c (sIiHNC (2 ^ c.pot) c.k c.r n g) k

/-- models.py 1055-1076 and 1080-1101: the matrix of the three potentials.  The last row and the last column
are overwritten, then the last entry.  The species are `m` ions and the electrons, which come last. -/
def assemble {m : ℕ} {α : Type} (Vii Vei Vee : Fin (m + 1) → Fin (m + 1) → α) (a b : Fin (m + 1)) : α :=
  let l := Fin.last m
  let V1 := fun a b => if a = l then Vei l b else Vii a b
  let V2 := fun a b => if b = l then Vei a l else V1 a b
  if a = l ∧ b = l then Vee l l else V2 a b

/-- models.py 1106: `n`. -/
noncomputable def withNe {m : ℕ} (n : Fin m → ℝ) (ne : ℝ) : Fin (m + 1) → ℝ := Fin.snoc n ne

/-- models.py 1047-1123: the arguments of `pair_distribution_function_HNC` in `ThreePotentialHNCIonFeat`.  `s` and
`l` are the results of `short_r` and `long_k` of the three potentials.  The last argument is not passed by the
code, so that it has its default 4 (hypernetted_chain.py 517-519). -/
noncomputable def threeInput {m : ℕ} (c : Settings) (kB : ℝ) (sii sei see lii lei lee : Fin (m + 1) → Fin (m + 1) → ℕ → ℝ)
    (T : Fin (m + 1) → Fin (m + 1) → ℝ) (n : Fin m → ℝ) (ne : ℝ) : Input (m + 1) :=
  { N := 2 ^ c.pot, r := c.r, Vs := assemble sii sei see, Vlk := assemble lii lei lee, T := T, n := withNe n ne,
    mix := c.mix, maxSize := 4, kB := kB }

/-- models.py 1040-1128 `_S_ii_with_electrons` returns `S` (without `SVT`). -/
def ThreeReturns {m : ℕ} (c : Settings) (p : Input (m + 1)) (k : ℝ) (S : Fin (m + 1) → Fin (m + 1) → ℝ) : Prop :=
  ∃ g it, p.Returns c.tmult g it ∧ S = hncInterp c (sIiHNC (2 ^ c.pot) c.k c.r p.n g) k

/-- models.py 849-896 `OnePotentialHNCIonFeat.S_ii` returns `S`, with `SVT`: the masses are those of the ions. -/
def OneSvtReturns {m : ℕ} (c : Settings) (kB : ℝ) (Vs Vlk : Fin m → Fin m → ℕ → ℝ) (T : Fin m → Fin m → ℝ) (n : Fin m → ℝ)
    (mass : Fin m → ℝ) (k : ℝ) (S : Fin m → Fin m → ℝ) : Prop :=
  ∃ g it, (oneInput c kB Vs Vlk T n).SvtReturns mass c.tmult g it ∧ S = hncInterp c (sIiHNC (2 ^ c.pot) c.k c.r n g) k

/-- models.py 1040-1128 `_S_ii_with_electrons` returns `S`, with `SVT`: the masses are those of the ions and, last, of the
electron (models.py 1108-1113). -/
def ThreeSvtReturns {m : ℕ} (c : Settings) (p : Input (m + 1)) (mass : Fin m → ℝ) (me : ℝ) (k : ℝ)
    (S : Fin (m + 1) → Fin (m + 1) → ℝ) : Prop :=
  ∃ g it, p.SvtReturns (withNe mass me) c.tmult g it ∧ S = hncInterp c (sIiHNC (2 ^ c.pot) c.k c.r p.n g) k

/-- models.py 1130-1139 `S_ii`: without the electrons. -/
def ions {m : ℕ} {α : Type} (S : Fin (m + 1) → Fin (m + 1) → α) (a b : Fin m) : α := S a.castSucc b.castSucc

/-- models.py 1148-1156: the screening from the diagonal of `S` and its last column. -/
noncomputable def threeQ {m : ℕ} (Z : Fin m → ℝ) (S : Fin (m + 1) → Fin (m + 1) → ℝ) (a : Fin m) : ℝ :=
  qGlenzer2009 (S a.castSucc (Fin.last m)) (S a.castSucc a.castSucc) (Z a)

/-- models.py 1141-1188 `ThreePotentialHNCIonFeat.Rayleigh_weight`, with the form factors `f`. -/
noncomputable def threeRayleigh {m : ℕ} (s : Mix m) (f : Fin m → ℝ) (S : Fin (m + 1) → Fin (m + 1) → ℝ) : ℝ :=
  ∑ a, ∑ b, sqrt (s.x a * s.x b) * (f a + threeQ s.Z S a) * (f b + threeQ s.Z S b) * S a.castSucc b.castSucc

/-- The matrix which a method of a potential returns, one entry for each pair of species; `none` if it raises. -/
noncomputable def potMatrix {u : Consts} {m : ℕ} (p : Plasma) (mode : Mode) (method : Pair → Leaf → Option (ℝ → ℝ))
    (V : Potential) (x : ℕ → ℝ) (a b : Fin m) (j : ℕ) : Option ℝ :=
  (eval (method (p.pair u mode a b)) V).map fun f => f (x j)

end Verif.HncFeat
