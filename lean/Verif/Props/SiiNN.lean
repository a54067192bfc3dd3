/-
C95: the structure factors from a neural network belong to the species of the plasma.
-/
import Verif.Model.SiiNN
import Mathlib.Data.List.Sort
import Mathlib.Data.List.GetD
import Mathlib.Data.List.Rotate
import Mathlib.Tactic.FieldSimp
import Mathlib.Tactic.Linarith
import Mathlib.Tactic.Ring
import Mathlib.Tactic.NormNum
import Mathlib.Algebra.BigOperators.Intervals

set_option autoImplicit false

namespace Verif.SiiNN

variable {α : Type} [DecidableEq α]

/-! ### The network -/

theorem mapIdx_layers (w : ℕ → ℕ → ℕ → ℝ) (b : ℕ → ℕ → ℝ) (l : List (ℕ × ℕ)) (f : Layer → ℕ) (g : ℕ × ℕ → ℕ)
    (h : ∀ i s, f ⟨s.1, s.2, w i, b i⟩ = g s) :
    (l.mapIdx fun i s => (⟨s.1, s.2, w i, b i⟩ : Layer)).map f = l.map g := by
  apply List.ext_getElem
  · simp
  · intro i h1 h2
    simp [h]

theorem init_linears {expanded : Bool} {din : ℕ} {dhid : List ℕ} {dout : ℕ} {na : Option ℕ}
    {w : ℕ → ℕ → ℕ → ℝ} {b : ℕ → ℕ → ℝ} {N : Net} (h : init expanded din dhid dout na w b = some N) :
    dhid ≠ [] ∧ N.expanded = expanded ∧ N.noOfAtoms = na.getD (din - 3) ∧
      N.linears.map (fun L => L.inF) = (if expanded then din + N.noOfAtoms else din) :: dhid ∧
      N.linears.map (fun L => L.outF) = dhid ++ [dout] := by
  unfold init at h
  split at h
  · exact absurd h (by simp)
  · rename_i hc
    push Not at hc
    obtain rfl := Option.some.inj h
    refine ⟨hc.1, rfl, rfl, ?_, ?_⟩
    · rw [mapIdx_layers _ _ _ (fun L => L.inF) Prod.fst (fun _ _ => rfl)]
      unfold sizes
      rw [List.map_fst_zip (by simp)]
    · rw [mapIdx_layers _ _ _ (fun L => L.outF) Prod.snd (fun _ _ => rfl)]
      unfold sizes
      rw [List.map_snd_zip (by simp)]

/-- C95: the properties of a network return the numbers it was made with, so that a network that is made
from them has the same shape.  Norms do not change the shape. -/
theorem shape_init {expanded : Bool} {din : ℕ} {dhid : List ℕ} {dout : ℕ} {na : Option ℕ}
    {w : ℕ → ℕ → ℕ → ℝ} {b : ℕ → ℕ → ℝ} {N : Net} (h : init expanded din dhid dout na w b = some N)
    (T rho k : ℝ) (Z : List ℝ) :
    (N.setNorms T rho Z k).din = some din ∧ (N.setNorms T rho Z k).dhid = dhid ∧
      (N.setNorms T rho Z k).dout = some dout := by
  obtain ⟨hne, he, hn, hin, hout⟩ := init_linears h
  unfold Net.setNorms Net.din Net.dhid Net.dout
  simp only
  refine ⟨?_, ?_, ?_⟩
  · have := congrArg List.head? hin
    rw [List.head?_map, List.head?_cons] at this
    obtain ⟨L, hL, hLi⟩ := Option.map_eq_some_iff.mp this
    rw [hL, Option.map_some, hLi, he]
    cases expanded <;> simp
  · rw [List.map_tail, hin, List.tail_cons]
  · have := congrArg List.getLast? hout
    rw [List.getLast?_map, List.getLast?_append_of_ne_nil _ (by simp)] at this
    exact this

/-- A chain of layers that fit together. -/
theorem callLayers_some : ∀ (Ls : List Layer) (x : List ℝ) (i : ℕ) (hid : List ℕ) (o : ℕ),
    Ls.map (fun L => L.inF) = i :: hid → Ls.map (fun L => L.outF) = hid ++ [o] →
    (x.length = i → ∃ v, callLayers Ls x = some v ∧ v.length = o) ∧ (x.length ≠ i → callLayers Ls x = none)
  | [], _, _, _, _, h, _ => by simp at h
  | [L], x, i, hid, o, h1, h2 => by
    simp only [List.map_cons, List.map_nil, List.cons.injEq] at h1
    obtain ⟨rfl, rfl⟩ := h1
    simp only [List.map_cons, List.map_nil, List.nil_append, List.cons.injEq, and_true] at h2
    subst h2
    unfold callLayers Layer.apply
    constructor
    · intro hx
      rw [if_pos hx]
      exact ⟨_, rfl, by simp⟩
    · intro hx
      rw [if_neg hx]
  | L :: L' :: Ls, x, i, hid, o, h1, h2 => by
    rw [List.map_cons] at h1 h2
    obtain ⟨rfl, h1'⟩ := List.cons.inj h1
    cases hid with
    | nil => simp at h1'
    | cons a hid =>
      rw [List.cons_append] at h2
      obtain ⟨h3, h2⟩ := List.cons.inj h2
      constructor
      · intro hx
        have hy : L.apply x = some ((List.range L.outF).map fun j =>
            (∑ i ∈ Finset.range L.inF, x.getD i 0 * L.kernel i j) + L.bias j) := by
          unfold Layer.apply
          rw [if_pos hx]
        have e : callLayers (L :: L' :: Ls) x = (L.apply x).bind fun y => callLayers (L' :: Ls) (y.map silu) := by
          rw [callLayers]
          exact fun h => by cases h
        rw [e, hy, Option.bind_some]
        exact (callLayers_some (L' :: Ls) _ a hid o h1' h2).1 (by simp [h3])
      · intro hx
        have e : callLayers (L :: L' :: Ls) x = (L.apply x).bind fun y => callLayers (L' :: Ls) (y.map silu) := by
          rw [callLayers]
          exact fun h => by cases h
        rw [e]
        unfold Layer.apply
        rw [if_neg hx, Option.bind_none]

/-- C95: the split of a charge: the stage is a whole number, the rest is at least zero and below one, and
together they are the charge; nothing else of the input changes, and no information is lost. -/
theorem expandZ_spec (N : Net) {T rho k : ℝ} {Z : List ℝ} (hZ : Z.length = N.noOfAtoms) (hn : N.normZ.length = N.noOfAtoms) :
    ∃ phi stage : List ℝ, N.expandZ ([T, rho] ++ Z ++ [k]) = some ([T, rho] ++ phi ++ stage ++ [k]) ∧
      phi.length = N.noOfAtoms ∧ stage.length = N.noOfAtoms ∧
      ∀ i < N.noOfAtoms, (0 ≤ phi.getD i 0 ∧ phi.getD i 0 < 1) ∧ (∃ z : ℤ, stage.getD i 0 = z) ∧
        phi.getD i 0 + stage.getD i 0 = Z.getD i 0 * N.normZ.getD i 0 := by
  have hl : (List.zipWith (· * ·) Z N.normZ).length = N.noOfAtoms := by simp [hZ, hn]
  refine ⟨(List.zipWith (· * ·) Z N.normZ).map fun z => z - ((⌊z⌋ : ℤ) : ℝ),
    (List.zipWith (· * ·) Z N.normZ).map fun z => ((⌊z⌋ : ℤ) : ℝ), ?_, by simp [hZ, hn], by simp [hZ, hn], ?_⟩
  · unfold Net.expandZ
    have e1 : ([T, rho] ++ Z ++ [k]).take 2 = [T, rho] := by simp
    have e2 : (([T, rho] ++ Z ++ [k]).drop 2).take N.noOfAtoms = Z := by
      rw [← hZ]
      simp
    have e3 : ([T, rho] ++ Z ++ [k]).drop (2 + N.noOfAtoms) = [k] := by
      rw [← hZ, show 2 + Z.length = ([T, rho] ++ Z).length by simp; omega, List.drop_left]
    simp only [e1, e2, e3]
    unfold broadcast
    rw [if_pos (by rw [hZ, hn]), Option.map_some]
  · intro i hi
    have g : ∀ f : ℝ → ℝ, ((List.zipWith (· * ·) Z N.normZ).map f).getD i 0 = f (Z.getD i 0 * N.normZ.getD i 0) := by
      intro f
      rw [List.getD_eq_getElem _ _ (by simpa [hZ, hn] using hi), List.getElem_map, List.getElem_zipWith,
        List.getD_eq_getElem _ _ (by omega), List.getD_eq_getElem _ _ (by omega)]
    rw [g, g]
    refine ⟨⟨?_, ?_⟩, ⟨_, rfl⟩, by ring⟩
    · exact sub_nonneg.mpr (Int.floor_le _)
    · linarith [Int.lt_floor_add_one (Z.getD i 0 * N.normZ.getD i 0)]

/-- C95: a network made for `din` inputs gives `dout` outputs, for all weights and norms. -/
theorem call_length {expanded : Bool} {dhid : List ℕ} {dout n : ℕ} {w : ℕ → ℕ → ℕ → ℝ} {b : ℕ → ℕ → ℝ} {N : Net}
    (h : init expanded (3 + n) dhid dout none w b = some N) (T rho k : ℝ) {Zn : List ℝ} (hZn : Zn.length = n)
    (t r q : ℝ) {Z : List ℝ} (hZ : Z.length = n) :
    ∃ v, (N.setNorms T rho Zn k).call ([t, r] ++ Z ++ [q]) = some v ∧ v.length = dout := by
  obtain ⟨-, he, hn, hin, hout⟩ := init_linears h
  have hna : N.noOfAtoms = n := by rw [hn]; simp
  unfold Net.call
  cases expanded with
  | false =>
    have : (N.setNorms T rho Zn k).expanded = false := he
    rw [this]
    exact (callLayers_some _ _ _ _ _ hin hout).1 (by simp [hZ]; omega)
  | true =>
    have : (N.setNorms T rho Zn k).expanded = true := he
    rw [this]
    obtain ⟨phi, st, e, l1, l2, -⟩ := expandZ_spec (N.setNorms T rho Zn k) (T := t) (rho := r) (k := q) (Z := Z)
      (by rw [hZ]; exact hna.symm) (by show Zn.length = _; rw [hZn]; exact hna.symm)
    have l1' : phi.length = n := by rw [l1]; exact hna
    have l2' : st.length = n := by rw [l2]; exact hna
    rw [e]
    exact (callLayers_some _ _ _ _ _ hin hout).1 (by simp [l1', l2', hna]; omega)

/-! ### The matrix -/

/-- The structure factor of the pair of species `i`, `j` of the network: its outputs are the rows of the upper
triangle of the matrix, one after the other. -/
noncomputable def entry (m : ℕ) (v : List ℝ) (i j : ℕ) : ℝ :=
  v.getD ((∑ l ∈ Finset.range (min i j), (m - l)) + (max i j - min i j)) 0

theorem getElem?_flatMap {β γ : Type} (g : β → List γ) (l : List β) (i s : ℕ) {x : β} (hx : l[i]? = some x) (hs : s < (g x).length) :
    (l.flatMap g)[((l.take i).map fun y => (g y).length).sum + s]? = (g x)[s]? := by
  induction l generalizing i with
  | nil => simp at hx
  | cons y l ih =>
    cases i with
    | zero =>
      simp only [List.getElem?_cons_zero, Option.some.injEq] at hx
      subst hx
      rw [List.flatMap_cons, List.take_zero, List.map_nil, List.sum_nil, Nat.zero_add, List.getElem?_append_left hs]
    | succ i =>
      rw [List.getElem?_cons_succ] at hx
      rw [List.flatMap_cons, List.take_succ_cons, List.map_cons, List.sum_cons,
        List.getElem?_append_right (by omega), ← ih i hx]
      congr 1
      omega

theorem triu_nodup (m : ℕ) : (triu m).Nodup := by
  unfold triu
  rw [List.nodup_flatMap]
  refine ⟨fun i _ => (List.nodup_range' (step := 1)).map fun a b h => (Prod.mk.inj h).2, ?_⟩
  refine List.nodup_range.imp ?_ |> fun h => h
  intro i j hij x hx hy
  simp only [List.mem_map] at hx hy
  obtain ⟨a, -, rfl⟩ := hx
  obtain ⟨b, -, hb⟩ := hy
  exact hij (Prod.mk.inj hb).1.symm

theorem sum_take_range (m i : ℕ) (hi : i ≤ m) :
    (((List.range m).take i).map fun y => ((List.range' y (m - y)).map fun j => (y, j)).length).sum =
      ∑ l ∈ Finset.range i, (m - l) := by
  rw [List.take_range, min_eq_left hi]
  simp only [List.length_map, List.length_range']
  induction i with
  | zero => simp
  | succ i ih =>
    rw [List.range_succ, List.map_append, List.sum_append, ih (by omega), Finset.sum_range_succ]
    simp

theorem triu_idxOf {m i j : ℕ} (hij : i ≤ j) (hj : j < m) :
    (i, j) ∈ triu m ∧ (triu m).idxOf (i, j) = (∑ l ∈ Finset.range i, (m - l)) + (j - i) := by
  have h := getElem?_flatMap (fun i => (List.range' i (m - i)).map fun j => (i, j)) (List.range m) i (j - i) (x := i)
    (by rw [List.getElem?_range (by omega)]) (by simp; omega)
  rw [sum_take_range m i (by omega)] at h
  have h2 : ((List.range' i (m - i)).map fun j => (i, j))[j - i]? = some (i, j) := by
    rw [List.getElem?_map, List.getElem?_range' (by omega)]
    simp
    omega
  have h3 : (triu m)[(∑ l ∈ Finset.range i, (m - l)) + (j - i)]? = some (i, j) := h.trans h2
  obtain ⟨hlt, he⟩ := List.getElem?_eq_some_iff.mp h3
  refine ⟨he ▸ List.getElem_mem hlt, ?_⟩
  conv_lhs => rw [← he]
  exact (triu_nodup m).idxOf_getElem _ hlt

theorem mem_triu {m i j : ℕ} : (i, j) ∈ triu m ↔ i ≤ j ∧ j < m := by
  constructor
  · intro h
    unfold triu at h
    simp only [List.mem_flatMap, List.mem_range, List.mem_map, List.mem_range'_1, Prod.mk.injEq] at h
    obtain ⟨a, ha, b, hb, rfl, rfl⟩ := h
    omega
  · rintro ⟨h1, h2⟩
    exact (triu_idxOf h1 h2).1

/-- The number of outputs for `m` species. -/
theorem triu_length (m : ℕ) : 2 * (triu m).length = m * (m + 1) := by
  unfold triu
  rw [List.length_flatMap]
  have : ((List.range m).map fun i => ((List.range' i (m - i)).map fun j => (i, j)).length).sum = ∑ l ∈ Finset.range m, (m - l) := by
    have := sum_take_range m m le_rfl
    rwa [List.take_of_length_le (by simp)] at this
  rw [this]
  have h2 : ∑ l ∈ Finset.range m, (m - l) = ∑ l ∈ Finset.range m, (l + 1) := by
    rw [← Finset.sum_range_reflect]
    refine Finset.sum_congr rfl fun l hl => ?_
    have := Finset.mem_range.mp hl
    omega
  rw [h2, Finset.sum_add_distrib, Finset.sum_const, Finset.card_range, smul_eq_mul, mul_one, mul_add, mul_comm 2,
    Finset.sum_range_id_mul_two]
  cases m with
  | zero => rfl
  | succ m => simp; ring

/-- C95: the matrix has the entry of each pair, in both orders. -/
theorem sBase_entry {m : ℕ} (v : List ℝ) {i j : ℕ} (hi : i < m) (hj : j < m) : sBase m v i j = entry m v i j := by
  unfold sBase entry upper
  rcases lt_or_ge j i with h | h
  · rw [if_neg (by rw [mem_triu]; omega), if_pos h, if_pos (mem_triu.mpr ⟨h.le, hi⟩), (triu_idxOf h.le hi).2,
      min_eq_right h.le, max_eq_left h.le, zero_add]
  · rw [if_pos (mem_triu.mpr ⟨h, hj⟩), if_neg (by omega), (triu_idxOf h hj).2, min_eq_left h, max_eq_right h, add_zero]

theorem entry_symm (m : ℕ) (v : List ℝ) (i j : ℕ) : entry m v i j = entry m v j i := by
  unfold entry
  rw [min_comm, max_comm]

/-- The diagonal of a matrix whose entries differ. -/
theorem entry_diag_inj {m : ℕ} {v : List ℝ} (hv : v.Nodup) (hl : v.length = (triu m).length) {i j : ℕ} (hi : i < m) (hj : j < m)
    (h : entry m v i i = entry m v j j) : i = j := by
  have key : ∀ i < m, entry m v i i = v.getD ((triu m).idxOf (i, i)) 0 := by
    intro i hi
    unfold entry
    rw [(triu_idxOf le_rfl hi).2, min_self, max_self]
  have lt : ∀ i < m, (triu m).idxOf (i, i) < v.length := fun i hi => by
    rw [hl]
    exact List.idxOf_lt_length_iff.mpr (mem_triu.mpr ⟨le_rfl, hi⟩)
  rw [key i hi, key j hj, List.getD_eq_getElem _ _ (lt i hi), List.getD_eq_getElem _ _ (lt j hj)] at h
  have h2 := (hv.getElem_inj_iff).mp h
  have h3 := (List.idxOf_inj (mem_triu.mpr ⟨le_rfl, hi⟩)).mp h2
  exact (Prod.mk.inj h3).1

/-! ### The order of the species -/

theorem foldl_replicate_mem (acc : List α) (e : α) (he : e ∈ acc) (c : ℕ) :
    (List.replicate c e).foldl (fun acc e => if e ∈ acc then acc else acc ++ [e]) acc = acc := by
  induction c with
  | zero => rfl
  | succ c ih => rw [List.replicate_succ, List.foldl_cons, if_pos he, ih]

theorem unique_blocks {c : ℕ} (hc : 0 < c) (elems : List α) (h : elems.Nodup) :
    unique (elems.flatMap (List.replicate c)) = elems := by
  have key : ∀ (l acc : List α), (acc ++ l).Nodup →
      (l.flatMap (List.replicate c)).foldl (fun acc e => if e ∈ acc then acc else acc ++ [e]) acc = acc ++ l := by
    intro l
    induction l with
    | nil => intro acc _; simp
    | cons x l ih =>
      intro acc hn
      have hx : x ∉ acc := fun hm => by
        have := List.disjoint_of_nodup_append hn
        exact this hm (by simp)
      rw [List.flatMap_cons, List.foldl_append]
      obtain ⟨c', rfl⟩ : ∃ c', c = c' + 1 := ⟨c - 1, by omega⟩
      rw [List.replicate_succ, List.foldl_cons, if_neg hx, foldl_replicate_mem _ _ (by simp), ih _ (by simpa using hn)]
      simp
  exact (key elems [] (by simpa using h)).trans (by simp)

omit [DecidableEq α] in
theorem blocks_getElem? {c : ℕ} (hc : 0 < c) (B : List α) (i : ℕ) : (B.flatMap (List.replicate c))[i]? = B[i / c]? := by
  induction B generalizing i with
  | nil => simp
  | cons x B ih =>
    rw [List.flatMap_cons]
    rcases lt_or_ge i c with h | h
    · rw [List.getElem?_append_left (by simpa using h), Nat.div_eq_of_lt h, List.getElem?_cons_zero,
        List.getElem?_replicate, if_pos h]
    · rw [List.getElem?_append_right (by simpa using h), List.length_replicate, ih,
        show i / c = (i - c) / c + 1 by rw [Nat.div_eq_sub_div hc h], List.getElem?_cons_succ]

omit [DecidableEq α] in
theorem blocks_length (c : ℕ) (B : List α) : (B.flatMap (List.replicate c)).length = c * B.length := by
  induction B with
  | nil => simp
  | cons x B ih => rw [List.flatMap_cons, List.length_append, ih, List.length_replicate, List.length_cons]; ring

theorem nodup_getElem?_iff {B : List α} (hB : B.Nodup) {e : α} (he : e ∈ B) (i : ℕ) : B[i]? = some e ↔ i = B.idxOf e := by
  constructor
  · intro h
    obtain ⟨hlt, h⟩ := List.getElem?_eq_some_iff.mp h
    rw [← h]
    exact (hB.idxOf_getElem i hlt).symm
  · rintro rfl
    exact List.getElem?_idxOf he

theorem indices_blocks {c : ℕ} (hc : 0 < c) {B : List α} (hB : B.Nodup) {e : α} (he : e ∈ B) :
    indices (B.flatMap (List.replicate c)) e = List.range' (c * B.idxOf e) c := by
  refine List.Pairwise.eq_of_mem_iff (r := (· < ·)) ?_ (List.pairwise_lt_range' (step := 1)) ?_
  · exact List.pairwise_lt_range.filter _
  · intro i
    unfold indices
    rw [List.mem_filter, List.mem_range, decide_eq_true_eq, blocks_getElem? hc, nodup_getElem?_iff hB he, List.mem_range'_1,
      blocks_length]
    have hlt := List.idxOf_lt_length_iff.mpr he
    generalize B.idxOf e = k at *
    rw [Nat.div_eq_iff hc]
    constructor
    · rintro ⟨h1, h2, h3⟩
      rw [mul_comm]
      omega
    · rintro ⟨h1, h2⟩
      have h3 : c * (k + 1) ≤ c * B.length := Nat.mul_le_mul_left _ hlt
      rw [Nat.mul_succ] at h3
      rw [mul_comm] at h1 h2
      refine ⟨by rw [mul_comm] at h3; omega, ?_, ?_⟩ <;> omega

theorem idxArr_blocks {c : ℕ} (hc : 0 < c) {elems B : List α} (he : elems.Nodup) (hB : B.Perm elems) :
    idxArr (elems.flatMap (List.replicate c)) (B.flatMap (List.replicate c)) =
      some (elems.map fun e => List.range' (c * B.idxOf e) c) := by
  have hBn : B.Nodup := hB.nodup_iff.mpr he
  have hmap : elems.map (indices (B.flatMap (List.replicate c))) = elems.map fun e => List.range' (c * B.idxOf e) c :=
    List.map_congr_left fun e h => indices_blocks hc hBn (hB.mem_iff.mpr h)
  unfold idxArr
  simp only [unique_blocks hc elems he, hmap]
  rw [if_pos]
  intro r hr s hs
  obtain ⟨a, -, rfl⟩ := List.mem_map.mp hr
  obtain ⟨b, -, rfl⟩ := List.mem_map.mp hs
  simp

theorem foldl_append_flatten {β : Type} (l : List (List β)) (acc : List β) :
    l.foldl (fun p row => p ++ row) acc = acc ++ l.flatten := by
  induction l generalizing acc with
  | nil => simp
  | cons x l ih => simp [ih]

theorem perm_blocks {c : ℕ} (hc : 0 < c) {elems B : List α} (he : elems.Nodup) (hB : B.Perm elems) :
    perm (elems.flatMap (List.replicate c)) (B.flatMap (List.replicate c)) =
      some (elems.flatMap fun e => List.range' (c * B.idxOf e) c) := by
  unfold perm
  rw [idxArr_blocks hc he hB, Option.map_some, foldl_append_flatten, List.nil_append, List.flatMap]

theorem perm_getD {c : ℕ} {elems B : List α} {i s : ℕ} (hs : s < c) {e : α} (hi : elems[i]? = some e) :
    (elems.flatMap fun e => List.range' (c * B.idxOf e) c).getD (c * i + s) 0 = c * B.idxOf e + s := by
  have h := getElem?_flatMap (fun e => List.range' (c * B.idxOf e) c) elems i s hi (by simpa using hs)
  have hlen : i ≤ elems.length := by
    obtain ⟨h, -⟩ := List.getElem?_eq_some_iff.mp hi
    omega
  have hsum : ((elems.take i).map fun y => (List.range' (c * B.idxOf y) c).length).sum = c * i := by
    simp only [List.length_range']
    rw [List.map_const', List.sum_replicate, List.length_take, min_eq_left hlen, smul_eq_mul, mul_comm]
  rw [hsum] at h
  rw [List.getD_eq_getElem?_getD, h, List.getElem?_range' hs]
  simp

/-- What the matrix should be: the species at position `c * i + s` of the plasma, the `s`-th of the element
`B[i]`, is the `s`-th species of that element in the list of the network. -/
def Right (c : ℕ) (elems B : List α) (v : List ℝ) (S : ℕ → ℕ → ℝ) : Prop :=
  ∀ i j s t, s < c → t < c → ∀ e f, B[i]? = some e → B[j]? = some f →
    S (c * i + s) (c * j + t) = entry (c * elems.length) v (c * elems.idxOf e + s) (c * elems.idxOf f + t)

theorem block_lt {c n k s : ℕ} (hk : k < n) (hs : s < c) : c * k + s < c * n := by
  have : c * (k + 1) ≤ c * n := Nat.mul_le_mul_left _ hk
  rw [Nat.mul_succ] at this
  omega

/-- The entries that are returned, for a network with the elements `elems` and a plasma with the elements `B`,
each of them with `c` species (one, or two with integer charges). -/
theorem sII_blocks {c : ℕ} (hc : 0 < c) {elems B : List α} (he : elems.Nodup) (hB : B.Perm elems) (N : Net)
    {ions : List (Ion α)} (hions : ions.map (fun s => s.elem) = B.flatMap (List.replicate c)) {T k : ℝ} {x v : List ℝ}
    (hx : input N (elems.flatMap (List.replicate c)) ions T k = some x) (hv : N.call x = some v)
    (hl : v.length = (triu (c * elems.length)).length) :
    ∃ S, sII N (elems.flatMap (List.replicate c)) ions T k = some (c * elems.length, S) ∧
      ∀ i j s t, s < c → t < c → ∀ e f, elems[i]? = some e → elems[j]? = some f →
        S (c * i + s) (c * j + t) = entry (c * elems.length) v (c * B.idxOf e + s) (c * B.idxOf f + t) := by
  refine ⟨fun a b => sBase (c * elems.length) v
    (min ((elems.flatMap fun e => List.range' (c * B.idxOf e) c).getD a 0) (c * elems.length - 1))
    (min ((elems.flatMap fun e => List.range' (c * B.idxOf e) c).getD b 0) (c * elems.length - 1)), ?_, ?_⟩
  · unfold sII
    rw [hx, Option.bind_some, hv, Option.bind_some, blocks_length, if_pos hl, hions, perm_blocks hc he hB, Option.map_some]
    congr 2
    rw [List.length_flatMap]
    simp [mul_comm]
  · intro i j s t hs ht e f hi hj
    have lt : ∀ e ∈ elems, B.idxOf e < elems.length := fun e h => by
      rw [← hB.length_eq]
      exact List.idxOf_lt_length_iff.mpr (hB.mem_iff.mpr h)
    have h1 := block_lt (lt e (List.mem_of_getElem? hi)) hs
    have h2 := block_lt (lt f (List.mem_of_getElem? hj)) ht
    simp only
    rw [perm_getD hs hi, perm_getD ht hj, min_eq_left (by omega), min_eq_left (by omega), sBase_entry v h1 h2]

/-- C95: the matrix belongs to the species of the plasma if and only if the order of the elements in the
plasma and that in the network differ by a permutation that is its own inverse.  (For outputs that are all
different; the direction from right to left holds for all.) -/
theorem sII_right_iff {c : ℕ} (hc : 0 < c) {elems B : List α} (he : elems.Nodup) (hB : B.Perm elems) (N : Net)
    {ions : List (Ion α)} (hions : ions.map (fun s => s.elem) = B.flatMap (List.replicate c)) {T k : ℝ} {x v : List ℝ}
    (hx : input N (elems.flatMap (List.replicate c)) ions T k = some x) (hv : N.call x = some v)
    (hl : v.length = (triu (c * elems.length)).length) :
    ∃ S, sII N (elems.flatMap (List.replicate c)) ions T k = some (c * elems.length, S) ∧
      ((∀ (i : ℕ) (e f : α), elems[i]? = some e → B[i]? = some f → elems.idxOf f = B.idxOf e) → Right c elems B v S) ∧
      (v.Nodup → (Right c elems B v S ↔ ∀ (i : ℕ) (e f : α), elems[i]? = some e → B[i]? = some f → elems.idxOf f = B.idxOf e)) := by
  obtain ⟨S, h1, h2⟩ := sII_blocks hc he hB N hions hx hv hl
  have hlen : B.length = elems.length := hB.length_eq
  have other : ∀ (i : ℕ) (e : α), B[i]? = some e → ∃ f, elems[i]? = some f := by
    intro i e h
    obtain ⟨h', -⟩ := List.getElem?_eq_some_iff.mp h
    exact ⟨_, List.getElem?_eq_getElem (by omega)⟩
  have other' : ∀ (i : ℕ) (e : α), elems[i]? = some e → ∃ f, B[i]? = some f := by
    intro i e h
    obtain ⟨h', -⟩ := List.getElem?_eq_some_iff.mp h
    exact ⟨_, List.getElem?_eq_getElem (by omega)⟩
  have back : (∀ (i : ℕ) (e f : α), elems[i]? = some e → B[i]? = some f → elems.idxOf f = B.idxOf e) → Right c elems B v S := by
    intro h i j s t hs ht e f hi hj
    obtain ⟨e', he'⟩ := other i e hi
    obtain ⟨f', hf'⟩ := other j f hj
    rw [h2 i j s t hs ht e' f' he' hf', h i e' e he' hi, h j f' f hf' hj]
  refine ⟨S, h1, back, fun hn => ⟨?_, back⟩⟩
  intro hr i e f hi hf
  have a1 := h2 i i 0 0 hc hc e e hi hi
  have a2 := hr i i 0 0 hc hc f f hf hf
  have le : elems.idxOf f < elems.length := List.idxOf_lt_length_iff.mpr (hB.mem_iff.mp (List.mem_of_getElem? hf))
  have lf : B.idxOf e < elems.length := by
    rw [← hlen]
    exact List.idxOf_lt_length_iff.mpr (hB.mem_iff.mpr (List.mem_of_getElem? hi))
  have := entry_diag_inj hn hl (block_lt le hc) (block_lt lf hc) (a2.symm.trans a1)
  exact Nat.eq_of_mul_eq_mul_left hc (by omega)

/-- C95: for plasmas with the elements in the order of the network, and for all plasmas of one or two
elements, the entries belong to the species.
(Partial: false for other orders of three or more elements, see `sII_rotated_wrong`.) -/
theorem sII_right_partial {c : ℕ} (hc : 0 < c) {elems B : List α} (he : elems.Nodup) (hB : B.Perm elems)
    (h : B = elems ∨ elems.length ≤ 2) (N : Net)
    {ions : List (Ion α)} (hions : ions.map (fun s => s.elem) = B.flatMap (List.replicate c)) {T k : ℝ} {x v : List ℝ}
    (hx : input N (elems.flatMap (List.replicate c)) ions T k = some x) (hv : N.call x = some v)
    (hl : v.length = (triu (c * elems.length)).length) :
    ∃ S, sII N (elems.flatMap (List.replicate c)) ions T k = some (c * elems.length, S) ∧ Right c elems B v S := by
  obtain ⟨S, h1, h2, -⟩ := sII_right_iff hc he hB N hions hx hv hl
  refine ⟨S, h1, h2 ?_⟩
  have hBn : B.Nodup := hB.nodup_iff.mpr he
  have same : B = elems → ∀ (i : ℕ) (e f : α), elems[i]? = some e → B[i]? = some f → elems.idxOf f = B.idxOf e := by
    rintro rfl i e f h1 h2
    rw [h1] at h2
    rw [Option.some.inj h2]
  rcases h with h | h
  · exact same h
  · match elems, B, hB.length_eq, h with
    | [], [], _, _ => intro i e f h1; simp at h1
    | [a], [b], _, _ =>
      have := List.perm_singleton.mp hB
      exact same this
    | [a, b], [p, q], _, _ =>
      have hp : p = a ∨ p = b := by simpa using hB.mem_iff.mp (show p ∈ [p, q] by simp)
      have hq : q = a ∨ q = b := by simpa using hB.mem_iff.mp (show q ∈ [p, q] by simp)
      have hpq : p ≠ q := by simpa using hBn
      rcases hp with rfl | rfl <;> rcases hq with rfl | rfl
      · exact absurd rfl hpq
      · exact same rfl
      · intro i e f h1 h2
        have ne : q ≠ p := hpq.symm
        match i with
        | 0 =>
          obtain rfl : q = e := by simpa using h1
          obtain rfl : p = f := by simpa using h2
          rw [List.idxOf_cons_ne _ ne, List.idxOf_cons_self, List.idxOf_cons_ne _ hpq, List.idxOf_cons_self]
        | 1 =>
          obtain rfl : p = e := by simpa using h1
          obtain rfl : q = f := by simpa using h2
          rw [List.idxOf_cons_self, List.idxOf_cons_self]
        | i + 2 => simp at h1
      · exact absurd rfl hpq
    | _ :: _ :: _ :: _, _, _, h => exact absurd h (by simp)

/-- C95 is false: if the list of elements of the plasma starts with the second one of the network and ends with
the first one, for three or more elements, the matrix is wrong, for every network with different outputs. -/
theorem sII_rotated_wrong {c : ℕ} (hc : 0 < c) {a : α} {l : List α} (he : (a :: l).Nodup) (h2 : 2 ≤ l.length) (N : Net)
    {ions : List (Ion α)} (hions : ions.map (fun s => s.elem) = (l ++ [a]).flatMap (List.replicate c)) {T k : ℝ} {x v : List ℝ}
    (hx : input N ((a :: l).flatMap (List.replicate c)) ions T k = some x) (hv : N.call x = some v)
    (hl : v.length = (triu (c * (a :: l).length)).length) (hn : v.Nodup) :
    ∃ S, sII N ((a :: l).flatMap (List.replicate c)) ions T k = some (c * (a :: l).length, S) ∧ ¬ Right c (a :: l) (l ++ [a]) v S := by
  obtain ⟨S, h1, -, h3⟩ := sII_right_iff hc he (List.perm_append_singleton a l) N hions hx hv hl
  refine ⟨S, h1, fun h => ?_⟩
  match l, h2 with
  | p :: q :: l, _ =>
    have := (h3 hn).mp h 0 a p rfl rfl
    have hna : a ∉ p :: q :: l := (List.nodup_cons.mp he).1
    have hne : a ≠ p := fun h => hna (by simp [h])
    rw [List.idxOf_cons_ne _ hne, List.idxOf_cons_self, List.idxOf_append_of_notMem hna, List.idxOf_cons_self] at this
    simp at this

/-! ### The inputs -/

theorem indices_cons (y : α) (l : List α) (e : α) :
    indices (y :: l) e = (if y = e then [0] else []) ++ (indices l e).map Nat.succ := by
  unfold indices
  rw [List.length_cons, List.range_succ_eq_map, List.filter_cons, List.filter_map]
  simp only [List.getElem?_cons_zero, Option.some.injEq, decide_eq_true_eq]
  have : ((fun i => decide ((y :: l)[i]? = some e)) ∘ Nat.succ) = fun i => decide (l[i]? = some e) := by
    funext i
    simp
  rw [this]
  split_ifs <;> simp

theorem map_indices {β : Type} (g : Ion α → β) (d : β) (ions : List (Ion α)) (e : α) :
    (indices (ions.map fun s => s.elem) e).map (fun i => (ions[i]?.map g).getD d) =
      (ions.filter fun s => decide (s.elem = e)).map g := by
  induction ions with
  | nil => simp [indices]
  | cons y l ih =>
    rw [List.map_cons, indices_cons, List.map_append, List.map_map]
    have : ((fun i => (((y :: l)[i]?).map g).getD d) ∘ Nat.succ) = fun i => (l[i]?.map g).getD d := by
      funext i
      simp
    rw [this, ih, List.filter_cons]
    by_cases h : y.elem = e <;> simp [h]

/-- The mean charge of an element, weighted with the number fractions. -/
noncomputable def chargeOf (ions : List (Ion α)) (e : α) : ℝ :=
  ((ions.filter fun s => decide (s.elem = e)).map fun s => s.fraction * s.charge).sum /
    ((ions.filter fun s => decide (s.elem = e)).map fun s => s.fraction).sum

theorem meanCharge_eq (ions : List (Ion α)) (e : α) : meanCharge ions (indices (ions.map fun s => s.elem) e) = chargeOf ions e := by
  unfold meanCharge chargeOf
  have h1 := map_indices (fun s => (s.fraction, s.charge)) (0, 0) ions e
  have h2 := congrArg (List.map fun p : ℝ × ℝ => p.1 * p.2) h1
  have h3 := congrArg (List.map fun p : ℝ × ℝ => p.1) h1
  rw [List.map_map, List.map_map] at h2 h3
  simp only [Function.comp_def] at h2 h3
  simp only [h2, h3]

theorem indices_length (ions : List α) (e : α) : (indices ions e).length = ions.count e := by
  induction ions with
  | nil => simp [indices]
  | cons y l ih =>
    rw [indices_cons, List.length_append, List.length_map, ih, List.count_cons]
    by_cases h : y = e
    · simp [h, add_comm]
    · simp [h]

/-- The input, without reference to positions. -/
theorem input_eq (N : Net) (names : List α) (ions : List (Ion α)) (T k : ℝ) :
    input N names ions T k =
      if ∀ e ∈ unique names, ∀ f ∈ unique names, (ions.map fun s => s.elem).count e = (ions.map fun s => s.elem).count f then
        (broadcast (· / ·) ((unique names).map (chargeOf ions)) N.normZ).map fun Z =>
          [T / N.normT, (ions.map fun s => s.rho).sum / N.normRho] ++ Z ++ [k / N.normK]
      else none := by
  unfold input idxArr
  simp only [List.forall_mem_map, indices_length]
  split_ifs
  · rw [Option.bind_some, List.map_map]
    have : (meanCharge ions ∘ indices (ions.map fun s => s.elem)) = chargeOf ions := by
      funext e
      exact meanCharge_eq ions e
    rw [this]
  · rfl

/-- C95: the input of the network does not depend on the order of the species of the plasma. -/
theorem input_perm (N : Net) (names : List α) {ions ions' : List (Ion α)} (h : ions.Perm ions') (T k : ℝ) :
    input N names ions T k = input N names ions' T k := by
  rw [input_eq, input_eq]
  have h1 : ∀ e, (ions.map fun s => s.elem).count e = (ions'.map fun s => s.elem).count e := fun e => (h.map _).count_eq e
  have h2 : chargeOf ions = chargeOf ions' := by
    funext e
    unfold chargeOf
    rw [((h.filter _).map _).sum_eq, ((h.filter _).map _).sum_eq]
  simp only [h1, h2, (h.map fun s => s.rho).sum_eq]

/-- plasmastate.py 216-243 `expand_integer_ionization_states`: the two species with integer charge that replace
a species (modelled in Model/Density). -/
noncomputable def expandIon (s : Ion α) : List (Ion α) :=
  [⟨s.elem, (1 - (s.charge - ⌊s.charge⌋)) * s.fraction, ⌊s.charge⌋, (1 - (s.charge - ⌊s.charge⌋)) * s.rho⟩,
    ⟨s.elem, (s.charge - ⌊s.charge⌋) * s.fraction, ⌈s.charge⌉, (s.charge - ⌊s.charge⌋) * s.rho⟩]

theorem floor_ceil_mean (z : ℝ) : (1 - (z - ⌊z⌋)) * ⌊z⌋ + (z - ⌊z⌋) * ⌈z⌉ = z := by
  by_cases h : z = ⌊z⌋
  · rw [h]
    simp
  · have : ⌈z⌉ = ⌊z⌋ + 1 := by
      rw [Int.ceil_eq_iff]
      push_cast
      have h1 := Int.floor_le z
      have h2 := Int.lt_floor_add_one z
      exact ⟨by rw [add_sub_cancel_right]; exact lt_of_le_of_ne h1 (Ne.symm h), h2.le⟩
    rw [this]
    push_cast
    ring

theorem filter_expand (ions : List (Ion α)) (e : α) (g : Ion α → ℝ) (g' : Ion α → ℝ)
    (hg : ∀ s, ((expandIon s).map g).sum = g' s) :
    (((ions.flatMap expandIon).filter fun s => decide (s.elem = e)).map g).sum =
      ((ions.filter fun s => decide (s.elem = e)).map g').sum := by
  induction ions with
  | nil => rfl
  | cons s l ih =>
    rw [List.flatMap_cons, List.filter_append, List.map_append, List.sum_append, ih, List.filter_cons]
    have hs := hg s
    by_cases h : s.elem = e
    · have : (expandIon s).filter (fun s => decide (s.elem = e)) = expandIon s := by
        simp [expandIon, h]
      rw [this, hs]
      simp [h]
    · have : (expandIon s).filter (fun s => decide (s.elem = e)) = [] := by
        simp [expandIon, h]
      rw [this]
      simp [h]

/-- C95: the input of the network is the same for a plasma and for the plasma with integer charges that
`expand_integer_ionization_states` makes of it. -/
theorem input_expand (N : Net) {elems : List α} (he : elems.Nodup) (ions : List (Ion α)) (T k : ℝ) :
    input N (elems.flatMap (List.replicate 2)) (ions.flatMap expandIon) T k =
      input N (elems.flatMap (List.replicate 1)) ions T k := by
  rw [input_eq, input_eq, unique_blocks (by norm_num) _ he, unique_blocks (by norm_num) _ he]
  have h3 : ((ions.flatMap expandIon).map fun s => s.rho).sum = (ions.map fun s => s.rho).sum := by
    induction ions with
    | nil => rfl
    | cons s l ih =>
      rw [List.flatMap_cons, List.map_append, List.sum_append, ih, List.map_cons, List.sum_cons]
      simp [expandIon]
      ring
  have h1 : ∀ e, ((ions.flatMap expandIon).map fun s => s.elem).count e = 2 * (ions.map fun s => s.elem).count e := by
    intro e
    clear h3
    induction ions with
    | nil => rfl
    | cons s l ih =>
      rw [List.flatMap_cons, List.map_append, List.count_append, ih, List.map_cons, List.count_cons]
      by_cases h : s.elem = e
      · simp [expandIon, h]
        ring
      · simp [expandIon, h]
  have h2 : chargeOf (ions.flatMap expandIon) = chargeOf ions := by
    funext e
    unfold chargeOf
    rw [filter_expand ions e (fun s => s.fraction * s.charge) (fun s => s.fraction * s.charge),
      filter_expand ions e (fun s => s.fraction) (fun s => s.fraction)]
    · intro s
      simp [expandIon]
      ring
    · intro s
      simp only [expandIon, List.map_cons, List.map_nil, List.sum_cons, List.sum_nil, add_zero]
      conv_rhs => rw [← floor_ceil_mean s.charge]
      ring
  rw [h2, h3]
  simp only [h1, Nat.mul_right_inj (show (2 : ℕ) ≠ 0 by norm_num)]

/-- C95: a network made for `n` elements evaluates every plasma with these elements, for all weights and norms:
the hypotheses of the theorems above are met. -/
theorem sII_works {c : ℕ} (hc : 0 < c) {elems B : List α} (he : elems.Nodup) (hB : B.Perm elems) {expanded : Bool} {dhid : List ℕ}
    {w : ℕ → ℕ → ℕ → ℝ} {b : ℕ → ℕ → ℝ} {N : Net}
    (h : init expanded (3 + elems.length) dhid (triu (c * elems.length)).length none w b = some N) (nT nrho nk : ℝ) {nZ : List ℝ}
    (hZ : nZ.length = elems.length) {ions : List (Ion α)}
    (hions : ions.map (fun s => s.elem) = B.flatMap (List.replicate c)) (T k : ℝ) :
    ∃ x v, input (N.setNorms nT nrho nZ nk) (elems.flatMap (List.replicate c)) ions T k = some x ∧
      (N.setNorms nT nrho nZ nk).call x = some v ∧ v.length = (triu (c * elems.length)).length := by
  have hnZ : (N.setNorms nT nrho nZ nk).normZ = nZ := rfl
  obtain ⟨Z, hZl, hx⟩ : ∃ Z : List ℝ, Z.length = elems.length ∧
      input (N.setNorms nT nrho nZ nk) (elems.flatMap (List.replicate c)) ions T k =
        some ([T / nT, (ions.map fun s => s.rho).sum / nrho] ++ Z ++ [k / nk]) := by
    unfold input
    rw [hions, idxArr_blocks hc he hB, Option.bind_some, hnZ]
    unfold broadcast
    rw [if_pos (by simp [hZ]), Option.map_some]
    exact ⟨_, by simp [hZ], rfl⟩
  obtain ⟨v, hv, hl⟩ := call_length h nT nrho nk hZ (T / nT) ((ions.map fun s => s.rho).sum / nrho) (k / nk) hZl
  exact ⟨_, v, hx, hv, hl⟩

/-! ### The hypotheses can be met -/

/-- A network for three elements whose six outputs differ, as in `sII_rotated_wrong`. -/
example : ∃ (N : Net) (x v : List ℝ), init false 6 [1] 6 none (fun _ _ _ => 0) (fun _ j => j) = some N ∧
    input N (([0, 1, 2] : List ℕ).flatMap (List.replicate 1)) [⟨1, 1 / 3, 1, 1⟩, ⟨2, 1 / 3, 2, 1⟩, ⟨0, 1 / 3, 1, 1⟩] 10 1 = some x ∧
    N.call x = some v ∧ v.length = (triu (1 * ([0, 1, 2] : List ℕ).length)).length ∧ v.Nodup := by
  have h : ∃ N, init false 6 [1] 6 none (fun _ _ _ => 0) (fun _ j => j) = some N := by simp [init]
  obtain ⟨N, hN⟩ := h
  obtain ⟨x, v, h1, h2, h3⟩ := sII_works (c := 1) one_pos (elems := ([0, 1, 2] : List ℕ)) (B := [1, 2, 0]) (by decide) (by decide)
    (expanded := false) (dhid := [1]) (w := fun _ _ _ => 0) (b := fun _ j => (j : ℝ)) (N := N)
    (by rw [show (triu (1 * ([0, 1, 2] : List ℕ).length)).length = 6 from by decide]; exact hN) 1 1 1 (nZ := [1, 1, 1]) rfl
    (ions := [⟨1, 1 / 3, 1, 1⟩, ⟨2, 1 / 3, 2, 1⟩, ⟨0, 1 / 3, 1, 1⟩]) (by simp) 10 1
  have hNn : N.setNorms 1 1 [1, 1, 1] 1 = N := by
    simp only [init] at hN
    simp at hN
    subst hN
    rfl
  rw [hNn] at h1 h2
  refine ⟨N, x, v, hN, h1, h2, h3, ?_⟩
  obtain ⟨y, hy⟩ : ∃ y : List ℝ, callLayers [⟨1, 6, fun _ _ => 0, fun j => j⟩] y = some v := by
    simp only [init] at hN
    simp [sizes] at hN
    subst hN
    simp only [Net.call, callLayers] at h2
    obtain ⟨y, -, h5⟩ := Option.bind_eq_some_iff.mp h2
    exact ⟨_, h5⟩
  unfold callLayers Layer.apply at hy
  split at hy
  · obtain rfl := Option.some.inj hy
    refine List.nodup_range.map ?_
    intro a b hab
    simpa using hab
  · exact absurd hy (by simp)

/-- C95: the function between the layers is the smooth approximation of the positive part: it vanishes at zero, keeps
more than half of a positive input, and its values are between zero and the input for positive inputs and between
half of the input and zero for negative ones. -/
theorem silu_spec (x : ℝ) : (0 < x → x / 2 < silu x ∧ silu x < x) ∧ (x < 0 → x / 2 < silu x ∧ silu x < 0) ∧ silu 0 = 0 := by
  have he := Real.exp_pos (-x)
  refine ⟨fun hx => ?_, fun hx => ?_, by simp [silu]⟩
  · have h1 : Real.exp (-x) < 1 := Real.exp_lt_one_iff.2 (by linarith)
    unfold silu
    exact ⟨div_lt_div_of_pos_left hx (by linarith) (by linarith), div_lt_self hx (by linarith)⟩
  · have h1 : 1 < Real.exp (-x) := Real.one_lt_exp_iff.2 (by linarith)
    unfold silu
    refine ⟨?_, div_neg_of_neg_of_pos hx (by linarith)⟩
    rw [div_lt_div_iff₀ (by norm_num) (by linarith)]
    nlinarith

end Verif.SiiNN
