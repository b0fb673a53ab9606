import Verif.Model.Resample
import Verif.Props.Kinematics
import Verif.Props.DecayRate
import Verif.Props.Schedule
/-!
# C94: interpolation of four-particle integrals on fine grids

Specification: every entry of the array is the exact value at its momentum, or lies on the chord between the
exact values at two neighbouring selected momenta around it; the first and the last momentum are always
selected; momenta that are skipped are closer than the resolution to the selected one below them.
-/
namespace PyBBN

theorem lt_ssL_iff' (l : List ℝ) (hs : l.Pairwise (· ≤ ·)) (x : ℝ) (j : ℕ) (hj : j < l.length) :
    j < searchsortedLeft l x ↔ l[j] < x := by
  unfold searchsortedLeft
  rw [takeWhile_lt_iff _ _ _ j hj]
  · simp
  · exact hs.imp fun hab => by simpa using fun hb => lt_of_le_of_lt hab hb

theorem mapM_ok_of {α β : Type*} (l : List α) (g : α → Except Err β) (v : α → β)
    (h : ∀ x ∈ l, g x = .ok (v x)) : l.mapM g = .ok (l.map v) := by
  induction l with
  | nil => rfl
  | cons x l ih =>
    rw [List.mapM_cons, h x (by simp), ih fun y hy => h y (by simp [hy])]
    rfl

/-- The chord through two points of the graph of `F`. -/
noncomputable def chord (F : ℝ → ℝ) (u v x : ℝ) : ℝ := F u + (F v - F u) * ((x - u) / (v - u))

/-- Linear interpolation in a table that is sorted, possibly with repeated abscissae: the entry is the tabulated value
at the first abscissa, otherwise the chord of the cell containing `x`. -/
theorem interp1d_value (F : ℝ → ℝ) (xs : List ℝ) (h2 : 2 ≤ xs.length) (hs : xs.Pairwise (· ≤ ·)) (x : ℝ)
    (h0 : xs[0] ≤ x) (hl : x ≤ xs[xs.length - 1]) :
    (x = xs[0] ∧ interp1d xs (xs.map F) x = .ok (F x)) ∨
    ∃ k, ∃ hk : k + 1 < xs.length, xs[k] < x ∧ x ≤ xs[k + 1] ∧
      interp1d xs (xs.map F) x = .ok (chord F xs[k] xs[k + 1] x) := by
  have hne : xs ≠ [] := by intro h; rw [h] at h2; simp at h2
  have hh : xs.head? = some xs[0] := by rw [List.head?_eq_getElem?, List.getElem?_eq_getElem]
  have hg : xs.getLast? = some xs[xs.length - 1] := by
    rw [List.getLast?_eq_getElem?, List.getElem?_eq_getElem]
  have hu : ¬ (x < xs[0] ∨ xs[xs.length - 1] < x) := by push Not; exact ⟨h0, hl⟩
  have hss : searchsortedLeft xs x ≤ xs.length - 1 := by
    by_contra h
    have h' : xs.length - 1 < searchsortedLeft xs x := by omega
    rw [lt_ssL_iff' xs hs x _ (by omega)] at h'
    linarith
  have key : ∀ k (hk : k + 1 < xs.length),
      min (max 1 (searchsortedLeft xs x : ℤ)) ((xs.length : ℤ) - 1) = ((k + 1 : ℕ) : ℤ) →
      interp1d xs (xs.map F) x =
        .ok ((F xs[k + 1] - F xs[k]) / (xs[k + 1] - xs[k]) * (x - xs[k]) + F xs[k]) := by
    intro k hk he
    unfold interp1d
    rw [hh, hg]
    dsimp only
    rw [if_neg hu]
    simp only [he]
    rw [show (((k + 1 : ℕ) : ℤ) - 1) = ((k : ℕ) : ℤ) by push_cast; ring, pyGet_nat xs k (by omega),
      pyGet_nat xs (k + 1) hk, pyGet_nat (xs.map F) k (by rw [List.length_map]; omega),
      pyGet_nat (xs.map F) (k + 1) (by rw [List.length_map]; omega)]
    simp only [List.getElem_map]
    rfl
  rcases Nat.eq_zero_or_pos (searchsortedLeft xs x) with hz | hz
  · left
    have hx : x = xs[0] := by
      have : ¬ 0 < searchsortedLeft xs x := by omega
      rw [lt_ssL_iff' xs hs x 0 (by omega)] at this
      linarith
    refine ⟨hx, ?_⟩
    rw [key 0 (by omega) (by rw [hz]; simp; omega)]
    congr 1
    rw [hx]; ring
  · right
    obtain ⟨k, hk⟩ := Nat.exists_eq_succ_of_ne_zero hz.ne'
    have hk1 : k + 1 < xs.length := by omega
    refine ⟨k, hk1, (lt_ssL_iff' xs hs x k (by omega)).mp (by omega), ?_, ?_⟩
    · have : ¬ k + 1 < searchsortedLeft xs x := by omega
      rw [lt_ssL_iff' xs hs x (k + 1) hk1] at this
      linarith
    · rw [key k hk1 (by rw [hk]; push_cast; omega)]
      congr 1
      unfold chord
      rw [div_mul_eq_mul_div, mul_div_assoc, add_comm]

/-- `linspace`. -/
noncomputable def linspacePt (ps : List ℝ) (hne : ps ≠ []) (n k : ℕ) : ℝ :=
  ps.head hne + k * ((ps.getLast hne - ps.head hne) / ((n : ℝ) - 1))

/-- The momentum number `j` is one of the selected ones. -/
def Selected (ps : List ℝ) (hne : ps ≠ []) (n j : ℕ) : Prop :=
  ∃ k < n, j = searchsortedLeft ps (linspacePt ps hne n k)

/-- `L` tabulates `F` at the momenta `ps` through `n` nodes: the first and the last momentum are selected; selected
entries are exact; any other entry lies on the chord between the exact values at the selected momenta next to it,
and is closer to the one below than the distance of the nodes. -/
def Interpolates (ps : List ℝ) (hne : ps ≠ []) (n : ℕ) (F : ℝ → ℝ) (L : List ℝ) : Prop :=
  L.length = ps.length ∧
      Selected ps hne n 0 ∧ Selected ps hne n (ps.length - 1) ∧
      ∀ j (hj : j < ps.length),
        (Selected ps hne n j → L[j]? = some (F ps[j])) ∧
        (¬ Selected ps hne n j → ∃ lo hi, ∃ hh : hi < ps.length, ∃ hlo : lo < j, j < hi ∧
          Selected ps hne n lo ∧ Selected ps hne n hi ∧ (∀ i, lo < i → i < hi → ¬ Selected ps hne n i) ∧
          L[j]? = some (chord F ps[lo] ps[hi] ps[j]) ∧
          ps[j] - ps[lo] < (ps.getLast hne - ps.head hne) / ((n : ℝ) - 1))

/-- **C94.** With at least two interpolation nodes, for a loop treating momenta one by one: no exception, and an array
that interpolates the exact values. -/
theorem C94_interpolated (F : ℝ → ℝ) (loop : List ℝ → Except Err (List ℝ)) (ps : List ℝ) (n : ℕ)
    (hne : ps ≠ []) (h2 : 2 ≤ ps.length) (hs : StrictInc ps) (hn : 2 ≤ n)
    (hloop : ∀ xs : List ℝ, xs.length = n → (∀ x ∈ xs, x ∈ ps) → loop xs = .ok (xs.map F)) :
    ∃ L : List ℝ, resampled (some n) ps loop = .ok L ∧ Interpolates ps hne n F L := by
  have hpos : 0 < ps.length := by omega
  have hhead : ps.head hne = ps[0] := List.head_eq_getElem hne
  have hlast : ps.getLast hne = ps[ps.length - 1] := List.getLast_eq_getElem hne
  have hab : ps[0] < ps[ps.length - 1] := hs.lt (by omega) (by omega)
  have hn1 : (0 : ℝ) < (n : ℝ) - 1 := by
    have : (2 : ℝ) ≤ n := by exact_mod_cast hn
    linarith
  set h := (ps.getLast hne - ps.head hne) / ((n : ℝ) - 1) with hh
  have hh0 : 0 < h := by rw [hh, hhead, hlast]; exact div_pos (by linarith) hn1
  set v := linspacePt ps hne n with hv
  set pos : ℕ → ℕ := fun k => searchsortedLeft ps (v k) with hposdef
  have hv0 : v 0 = ps[0] := by rw [hv]; unfold linspacePt; rw [hhead]; simp
  have hvl : v (n - 1) = ps[ps.length - 1] := by
    rw [hv]; unfold linspacePt
    rw [Nat.cast_sub (by omega), Nat.cast_one, mul_div_cancel₀ _ hn1.ne', hlast]; ring
  have hvs : ∀ k, v (k + 1) = v k + h := by
    intro k; rw [hv]; unfold linspacePt; push_cast; rw [← hh]; ring
  have hvm : Monotone v := monotone_nat_of_le_succ fun k => by rw [hvs]; linarith
  have hp0 : pos 0 = 0 := by
    change searchsortedLeft ps (v 0) = 0
    rw [hv0]; exact searchsortedLeft_at ps hs 0 hpos
  have hpl : pos (n - 1) = ps.length - 1 := by
    change searchsortedLeft ps (v (n - 1)) = _
    rw [hvl]; exact searchsortedLeft_at ps hs _ (by omega)
  have hpm : Monotone pos := by
    intro k k' hk
    by_contra hc
    have hc : pos k' < pos k := by omega
    have hlen : pos k' < ps.length := lt_of_lt_of_le hc (ssL_le _ _)
    have h1 := (lt_ssL_iff ps hs (v k) (pos k') hlen).mp hc
    have h2 : ¬ ps[pos k'] < v k' := fun h => absurd ((lt_ssL_iff ps hs (v k') (pos k') hlen).mpr h) (lt_irrefl _)
    exact h2 (lt_of_lt_of_le h1 (hvm hk))
  have hplt : ∀ k < n, pos k < ps.length := by
    intro k hk
    have := hpm (show k ≤ n - 1 by omega)
    rw [hpl] at this
    omega
  have hge : ∀ k (hk : pos k < ps.length), v k ≤ ps[pos k] := by
    intro k hk
    by_contra hc
    exact absurd ((lt_ssL_iff ps hs (v k) (pos k) hk).mpr (not_le.mp hc)) (lt_irrefl _)
  set xs : List ℝ := (List.range n).map fun k : ℕ => ps.getD (pos k) 0 with hxs
  have hxl : xs.length = n := by rw [hxs]; simp
  have hxg : ∀ k (hk : k < n), xs[k]'(by omega) = ps[pos k]'(hplt k hk) := by
    intro k hk
    simp only [hxs, List.getElem_map, List.getElem_range]
    exact List.getD_eq_getElem _ _ (hplt k hk)
  have hxsort : xs.Pairwise (· ≤ ·) := by
    rw [List.pairwise_iff_getElem]
    intro i j hi hj hij
    rw [hxg i (by omega), hxg j (by omega)]
    exact hs.le (hpm hij.le) (hplt j (by omega))
  have hxmem : ∀ x ∈ xs, x ∈ ps := by
    intro x hx
    obtain ⟨k, hk, rfl⟩ := List.mem_map.mp hx
    rw [List.getD_eq_getElem _ _ (hplt k (List.mem_range.mp hk))]
    exact List.getElem_mem _
  -- every entry
  have hent : ∀ j (hj : j < ps.length), ∃ w, interp1d xs (xs.map F) ps[j] = .ok w ∧
      (Selected ps hne n j → w = F ps[j]) ∧
        (¬ Selected ps hne n j → ∃ lo hi, ∃ hh : hi < ps.length, ∃ hlo : lo < j, j < hi ∧
          Selected ps hne n lo ∧ Selected ps hne n hi ∧ (∀ i, lo < i → i < hi → ¬ Selected ps hne n i) ∧
          w = chord F ps[lo] ps[hi] ps[j] ∧ ps[j] - ps[lo] < h) := by
    intro j hj
    have h0 : xs[0]'(by omega) = ps[0] := by
      rw [hxg 0 (by omega)]; congr 1
    have hl : xs[xs.length - 1]'(by omega) = ps[ps.length - 1] := by
      have := hxg (n - 1) (by omega)
      simp only [hpl] at this
      rw [← this]; congr 1; omega
    rcases interp1d_value F xs (by omega) hxsort ps[j] (by rw [h0]; exact hs.le (Nat.zero_le _) hj)
      (by rw [hl]; exact hs.le (by omega) (by omega)) with ⟨e, hi⟩ | ⟨k, hk, k1, k2, hi⟩
    · rw [h0] at e
      have hj0 : j = 0 := hs.inj hj hpos e
      subst hj0
      exact ⟨_, hi, fun _ => rfl, fun hc => absurd ⟨0, by omega, hp0.symm⟩ hc⟩
    · have hk' : k < n := by omega
      have hk1' : k + 1 < n := by omega
      rw [hxg k hk'] at k1 hi
      rw [hxg (k + 1) hk1'] at k2 hi
      have a1 : pos k < j := (hs.lt_iff (hplt k hk') hj).mp k1
      have a2 : j ≤ pos (k + 1) := by
        by_contra hc
        have := hs.lt (not_le.mp hc) hj
        linarith
      have hgap : ∀ i, pos k < i → i < pos (k + 1) → ¬ Selected ps hne n i := by
        rintro i g1 g2 ⟨m, -, rfl⟩
        change pos k < pos m at g1
        change pos m < pos (k + 1) at g2
        rcases Nat.lt_or_ge k m with hm | hm
        · have := hpm (show k + 1 ≤ m from hm); omega
        · have := hpm hm; omega
      refine ⟨_, hi, ?_, ?_⟩
      · intro hsel
        have : j = pos (k + 1) := by
          by_contra hc
          exact hgap j a1 (by omega) hsel
        subst this
        unfold chord
        rw [div_self (by linarith)]; ring
      · intro hsel
        have hj2 : j < pos (k + 1) := by
          rcases Nat.lt_or_ge j (pos (k + 1)) with hc | hc
          · exact hc
          · exfalso; exact hsel ⟨k + 1, hk1', by change j = pos (k + 1); omega⟩
        refine ⟨pos k, pos (k + 1), hplt _ hk1', a1, hj2, ⟨k, hk', rfl⟩, ⟨k + 1, hk1', rfl⟩, hgap, rfl, ?_⟩
        have b1 := (lt_ssL_iff ps hs (v (k + 1)) j hj).mp hj2
        have b2 := hge k (hplt k hk')
        rw [hvs] at b1
        linarith
  choose w hw1 hw2 hw3 using hent
  refine ⟨(List.range ps.length).map fun j => if hj : j < ps.length then w j hj else 0, ?_, by simp,
    ⟨0, by omega, hp0.symm⟩, ⟨n - 1, by omega, hpl.symm⟩, ?_⟩
  · unfold resampled
    have hip : interpPositions ps n = .ok ((List.range n).map pos) := by
      unfold interpPositions
      rw [List.head?_eq_some_head hne, List.getLast?_eq_some_getLast hne]
      dsimp only
      congr 1
      apply List.map_congr_left
      intro k _
      rw [if_neg (by omega)]
      rfl
    dsimp only
    rw [hip]
    have hxm : ((List.range n).map pos).mapM (fun i : ℕ => pyGet ps (i : ℤ)) = .ok xs := by
      rw [mapM_ok_of _ _ (fun i => ps.getD i 0), List.map_map]
      · rfl
      · intro i hi
        obtain ⟨k, hk, rfl⟩ := List.mem_map.mp hi
        have := hplt k (List.mem_range.mp hk)
        rw [pyGet_nat _ _ this, List.getD_eq_getElem _ _ this]
    simp only [bind, Except.bind]
    rw [hxm]
    dsimp only
    rw [hloop xs hxl hxmem]
    dsimp only
    have hps : ps = (List.range ps.length).map fun j => ps.getD j 0 := by
      apply List.ext_getElem
      · simp
      · intro j h1 h2
        simp only [List.getElem_map, List.getElem_range]
        rw [List.getD_eq_getElem _ _ h1]
    conv_lhs => rw [hps]
    rw [List.mapM_map]
    apply mapM_ok_of
    intro j hj
    have hj := List.mem_range.mp hj
    simp only [Function.comp_apply]
    rw [List.getD_eq_getElem _ _ hj, hw1 j hj, dif_pos hj]
  · intro j hj
    have hL : ((List.range ps.length).map fun j => if hj : j < ps.length then w j hj else 0)[j]? = some (w j hj) := by
      rw [List.getElem?_map, List.getElem?_range hj]
      simp [hj]
    rw [hL]
    refine ⟨fun hsel => by rw [hw2 j hj hsel], fun hsel => ?_⟩
    obtain ⟨lo, hi, q1, q2, q3, q4, q5, q6, q7, q8⟩ := hw3 j hj hsel
    exact ⟨lo, hi, q1, q2, q3, q4, q5, q6, by rw [q7], q8⟩

/-- Three momenta, two nodes: the middle one is interpolated. -/
example : ∃ L : List ℝ, resampled (some 2) [0, 1, 2] (fun xs => .ok (xs.map (· ^ 2))) = .ok L ∧
    L[1]? = some 2 := by
  have hs0 : Selected [0, 1, 2] (by simp) 2 0 ∧ Selected [0, 1, 2] (by simp) 2 2 ∧
      ¬ Selected [0, 1, 2] (by simp) 2 1 := by
    have hv : ∀ j, Selected [0, 1, 2] (by simp) 2 j ↔ j = 0 ∨ j = 2 := by
      intro j
      unfold Selected linspacePt
      constructor
      · rintro ⟨k, hk, rfl⟩
        interval_cases k
        · left; norm_num [searchsortedLeft]
        · right; norm_num [searchsortedLeft]
      · rintro (rfl | rfl)
        · exact ⟨0, by norm_num, by norm_num [searchsortedLeft]⟩
        · exact ⟨1, by norm_num, by norm_num [searchsortedLeft]⟩
    simp [hv]
  obtain ⟨L, h1, -, -, -, h2⟩ := C94_interpolated (· ^ 2) (fun xs => .ok (xs.map (· ^ 2))) [0, 1, 2] 2 (by simp) (by simp)
    (by simp [StrictInc]) le_rfl (fun _ _ _ => rfl)
  obtain ⟨lo, hi, q1, q2, q3, -, -, -, q4, -⟩ := (h2 1 (by simp)).2 hs0.2.2
  refine ⟨L, h1, ?_⟩
  have e1 : lo = 0 := by omega
  have e2 : hi = 2 := by simp at q1; omega
  subst e1 e2
  rw [q4]
  norm_num [chord]

/-- **C94.** The nodes: more than one as soon as the last momentum of the slice exceeds the resolution, and their
distance is then at most twice the resolution. -/
theorem C94_resolution (maxMom : ℝ) (samples n : ℕ) (first last res : ℝ) (hr : 0 < res) (hf : 0 ≤ first)
    (hn : interpSteps maxMom samples last res = some n) (hl : res < last) :
    2 ≤ n ∧ (last - first) / ((n : ℝ) - 1) ≤ 2 * res ∧ (3 ≤ n → (last - first) / ((n : ℝ) - 1) ≤ 3 / 2 * res) := by
  unfold interpSteps at hn
  split_ifs at hn with hc
  have hn : ⌈last / res⌉₊ = n := by simpa using hn
  have h1 : 1 < n := by
    rw [← hn, Nat.lt_ceil]; rw [lt_div_iff₀ hr]; simpa using hl
  have h2 : last ≤ n * res := by
    have := Nat.le_ceil (last / res)
    rw [hn, div_le_iff₀ hr] at this
    exact this
  have h3 : (2 : ℝ) ≤ n := by exact_mod_cast h1
  refine ⟨h1, ?_, fun h => ?_⟩
  · rw [div_le_iff₀ (by linarith)]
    nlinarith
  · have h4 : (3 : ℝ) ≤ n := by exact_mod_cast h
    rw [div_le_iff₀ (by linarith)]
    nlinarith

/-- The standard resolution on a grid of 1 MeV and 21 momenta cut at 0.6 MeV: three nodes. -/
example : interpSteps 1 21 (3 / 5) (24999 / 100000) = some 3 := by
  unfold interpSteps
  rw [if_pos (by norm_num)]
  congr 1
  rw [Nat.ceil_eq_iff (by norm_num)]
  norm_num

theorem mapM_error_of {α β : Type*} (e : Err) (g : α → Except Err β) : ∀ (l : List α)
    (_ : ∀ x ∈ l, (∃ v, g x = .ok v) ∨ g x = .error e) (_ : ∃ x ∈ l, g x = .error e), l.mapM g = .error e
  | [], _, h => by simp at h
  | x :: l, h, hx => by
    rw [List.mapM_cons]
    rcases h x (by simp) with ⟨v, hv⟩ | hv
    · have : ∃ y ∈ l, g y = .error e := by
        obtain ⟨y, hy, he⟩ := hx
        rcases List.mem_cons.mp hy with rfl | hy
        · rw [hv] at he; cases he
        · exact ⟨y, hy, he⟩
      rw [hv, mapM_error_of e g l (fun y hy => h y (by simp [hy])) this]
      rfl
    · rw [hv]; rfl

/-- **C94.** The number of nodes is one when the last momentum kept is within the resolution, and the integral then
raises `ValueError` if more than one momentum was kept. -/
theorem C94_single_node (F : ℝ → ℝ) (loop : List ℝ → Except Err (List ℝ)) (maxMom : ℝ) (samples n : ℕ)
    (last res : ℝ) (ps : List ℝ) (h2 : 2 ≤ ps.length) (hs : StrictInc ps) (hr : 0 < res) (h0 : 0 < last) (hl : last ≤ res)
    (hn : interpSteps maxMom samples last res = some n) (hloop : loop [ps[0]] = .ok [F ps[0]]) :
    n = 1 ∧ resampled (some n) ps loop = .error .valueError := by
  unfold interpSteps at hn
  split_ifs at hn with hc
  have hn : ⌈last / res⌉₊ = n := by simpa using hn
  have h1 : n = 1 := by
    apply le_antisymm
    · rw [← hn, Nat.ceil_le, div_le_iff₀ hr]; simpa using hl
    · rw [← hn, Nat.one_le_ceil_iff]; positivity
  refine ⟨h1, ?_⟩
  subst h1
  have hne : ps ≠ [] := by intro h; rw [h] at h2; simp at h2
  have hss : searchsortedLeft ps ps[0] = 0 := searchsortedLeft_at ps hs 0 (by omega)
  have hpos : interpPositions ps 1 = .ok [0] := by
    unfold interpPositions
    rw [List.head?_eq_some_head hne, List.getLast?_eq_some_getLast hne, List.head_eq_getElem hne]
    simp [hss]
  unfold resampled
  dsimp only
  rw [hpos]
  have hxs : ([0] : List ℕ).mapM (fun i : ℕ => pyGet ps (i : ℤ)) = .ok [ps[0]] := by
    rw [mapM_ok_of _ _ (fun _ => ps[0])]
    · rfl
    · intro i hi
      have : i = 0 := by simpa using hi
      subst this
      exact pyGet_nat ps 0 (by omega)
  simp only [bind, Except.bind]
  rw [hxs]
  dsimp only
  rw [hloop]
  dsimp only
  apply mapM_error_of
  · intro x hx
    unfold interp1d
    simp only [List.head?_cons, List.getLast?_singleton]
    by_cases hcx : x < ps[0] ∨ ps[0] < x
    · right; rw [if_pos hcx]
    · left
      rw [if_neg hcx]
      push Not at hcx
      have hx0 : x = ps[0] := le_antisymm hcx.2 hcx.1
      refine ⟨(F ps[0] - F ps[0]) / (ps[0] - ps[0]) * (x - ps[0]) + F ps[0], ?_⟩
      · have : searchsortedLeft [ps[0]] x = 0 := by rw [hx0]; simp [searchsortedLeft]
        rw [this]
        simp [pyGet, pyIndex, bind, Except.bind]
  · refine ⟨ps[1], List.getElem_mem _, ?_⟩
    unfold interp1d
    simp only [List.head?_cons, List.getLast?_singleton]
    rw [if_pos (Or.inr (hs.lt (by omega) (by omega)))]

/-- The cut at 0.2 MeV on a grid of 1 MeV and 21 momenta. -/
example : resampled (interpSteps 1 21 (1 / 5) (24999 / 100000)) [0, 1 / 20, 1 / 10, 3 / 20, 1 / 5]
    (fun xs => .ok (xs.map (· ^ 2))) = .error .valueError := by
  have h : interpSteps 1 21 (1 / 5) (24999 / 100000) = some 1 := by
    unfold interpSteps
    rw [if_pos (by norm_num)]
    congr 1
    rw [Nat.ceil_eq_iff (by norm_num)]
    norm_num
  rw [h]
  refine (C94_single_node (· ^ 2) _ 1 21 1 (1 / 5) (24999 / 100000) _ (by simp) ?_ (by norm_num) (by norm_num)
    (by norm_num) h rfl).2
  norm_num [StrictInc]

/-- **C94.** Coarse grids are not interpolated. -/
theorem C94_coarse {ι : Type*} (c : Int4 ι) (p : Params) (sched : List (List ℕ)) (maxMom : ℝ) (samples : ℕ)
    (last res : ℝ) (h : res ≤ maxMom / ((samples : ℝ) - 1)) :
    integrate4Fine c p sched (interpSteps maxMom samples last res) = integrate4 c p sched := by
  have hn : interpSteps maxMom samples last res = none := by
    unfold interpSteps; rw [if_neg (not_lt.mpr h)]
  rw [hn]
  unfold integrate4Fine integrate4 resampled
  dsimp only
  by_cases hneg : c.neglect = true
  · rw [if_pos hneg, if_pos hneg]
  rw [if_neg hneg, if_neg hneg]
  by_cases hk : (c.kind = .full ∨ c.kind = .fullVac) ∧ ¬ (c.sp 0).fastDecay = true
  · rw [if_pos hk, if_pos hk]
    simp only [bind, Except.bind]
    cases hA : integration4Exact (c.reaction p) (c.Ms.map (toCM c.GF)) CKind.f1.toInt
        (List.map (fun x => x / p.aT) (gridCut4 (c.sp 0).grid c.ub).1) (c.min1 / p.aT) (c.max1 / p.aT)
      (c.min2 / p.aT) (c.max2 / p.aT) (c.max3 / p.aT) sched with
    | error e => rfl
    | ok A =>
      dsimp only
      cases hB : integration4Exact (c.reaction p) (c.Ms.map (toCM c.GF)) CKind.ff.toInt
        (List.map (fun x => x / p.aT) (gridCut4 (c.sp 0).grid c.ub).1) (c.min1 / p.aT) (c.max1 / p.aT)
        (c.min2 / p.aT) (c.max2 / p.aT) (c.max3 / p.aT) sched with
      | error e => rfl
      | ok B =>
        dsimp only
        cases hf : List.mapM (fun x => particleDistribution (c.sp 0) p (c.st 0) (x * p.aT))
          (List.map (fun x => x / p.aT) (gridCut4 (c.sp 0).grid c.ub).1) <;> rfl
  · rw [if_neg hk, if_neg hk]

/-- The value of one momentum, with exact quadrature. -/
noncomputable def value4 {ι : Type*} (c : Int4 ι) (p : Params) (k : CKind) (q : ℝ) : ℝ :=
  match alone (loopCtx4 (c.reaction p) (c.max3 / p.aT))
    (exactQuad4 (c.reaction p) (c.Ms.map (toCM c.GF)) k.toInt (c.max3 / p.aT) (c.min2 / p.aT, c.max2 / p.aT))
    (c.min1 / p.aT, c.max1 / p.aT) q with
  | .ok v => v
  | .error _ => 0

theorem loop_value4 {ι : Type*} (c : Int4 ι) (p : Params) (k : CKind)
    (hT : reactionTypeSum [c.reaction p 0, c.reaction p 1, c.reaction p 2, c.reaction p 3] ≠ 0)
    (sched : List (List ℕ)) (xs : List ℝ) (hsch : ValidSchedule xs.length sched) :
    integration4Exact (c.reaction p) (c.Ms.map (toCM c.GF)) k.toInt xs (c.min1 / p.aT) (c.max1 / p.aT)
      (c.min2 / p.aT) (c.max2 / p.aT) (c.max3 / p.aT) sched = .ok (xs.map (value4 c p k)) := by
  unfold integration4Exact
  rw [C40_four_not_scattering _ hT _ _ _ _ _ hsch]
  apply mapM_ok_map
  intro q _
  unfold value4 alone exactQuad4
  dsimp only
  split <;> rfl

theorem zip_map {α : Type*} (A B f : α → ℝ) (l : List α) :
    List.zipWith (· + ·) (l.map A) (List.zipWith (· * ·) (l.map f) (l.map B)) = l.map fun x => A x + f x * B x := by
  induction l with
  | nil => rfl
  | cons x l ih => simp [ih]

/-- **C94.** The pair of arrays returned by `integrate` on a fine grid for a decay, an inverse decay or an unclassified
reaction: both interpolate the exact values, the first one those of `A + f B`, followed by the zeros of the cut,
times the constant. -/
theorem C94_integrate {ι : Type*} (c : Int4 ι) (p : Params) (sched : List (List ℕ)) (n : ℕ) (hn : 2 ≤ n)
    (hsch : ValidSchedule n sched) (hneg : c.neglect = false) (hk : c.kind = .full ∨ c.kind = .fullVac)
    (hfast : (c.sp 0).fastDecay = false) (haT : 0 < p.aT)
    (hT : reactionTypeSum [c.reaction p 0, c.reaction p 1, c.reaction p 2, c.reaction p 3] ≠ 0)
    (ps : List ℝ) (hps : ps = (gridCut4 (c.sp 0).grid c.ub).1.map (· / p.aT)) (hne : ps ≠ []) (h2 : 2 ≤ ps.length)
    (hs : StrictInc (gridCut4 (c.sp 0).grid c.ub).1) (f : ℝ → ℝ)
    (hf : ∀ q ∈ ps, particleDistribution (c.sp 0) p (c.st 0) (q * p.aT) = .ok (f q)) :
    ∃ C B : List ℝ, Interpolates ps hne n (fun q => value4 c p .f1 q + f q * value4 c p .ff q) C ∧
      Interpolates ps hne n (value4 c p .ff) B ∧
      integrate4Fine c p sched (some n) = .ok (.two
        ((C ++ (gridCut4 (c.sp 0).grid c.ub).2).map (· * constant4 c.GF (c.sp 0).dof c.majorana c.mult p))
        ((B ++ (gridCut4 (c.sp 0).grid c.ub).2).map (· * constant4 c.GF (c.sp 0).dof c.majorana c.mult p))) := by
  have hsp : StrictInc ps := by
    rw [hps]
    unfold StrictInc at hs ⊢
    rw [List.pairwise_map]
    exact hs.imp fun h => by gcongr
  have hB := C94_interpolated (value4 c p .ff) (fun xs => integration4Exact (c.reaction p) (c.Ms.map (toCM c.GF))
    CKind.ff.toInt xs (c.min1 / p.aT) (c.max1 / p.aT) (c.min2 / p.aT) (c.max2 / p.aT) (c.max3 / p.aT) sched) ps n hne h2
    hsp hn (fun xs hx _ => loop_value4 c p .ff hT sched xs (by rw [hx]; exact hsch))
  have hC := C94_interpolated (fun q => value4 c p .f1 q + f q * value4 c p .ff q) (fun xs => do
        let A ← integration4Exact (c.reaction p) (c.Ms.map (toCM c.GF))
          CKind.f1.toInt xs (c.min1 / p.aT) (c.max1 / p.aT) (c.min2 / p.aT) (c.max2 / p.aT) (c.max3 / p.aT) sched
        let B ← integration4Exact (c.reaction p) (c.Ms.map (toCM c.GF))
          CKind.ff.toInt xs (c.min1 / p.aT) (c.max1 / p.aT) (c.min2 / p.aT) (c.max2 / p.aT) (c.max3 / p.aT) sched
        let f ← xs.mapM fun x => particleDistribution (c.sp 0) p (c.st 0) (x * p.aT)
        .ok (List.zipWith (· + ·) A (List.zipWith (· * ·) f B))) ps n hne h2 hsp hn (by
    intro xs hx hm
    rw [loop_value4 c p .ff hT sched xs (by rw [hx]; exact hsch),
      loop_value4 c p .f1 hT sched xs (by rw [hx]; exact hsch), mapM_ok_of xs _ f fun x h => hf x (hm x h)]
    simp only [bind, Except.bind, zip_map])
  obtain ⟨B, b1, b2⟩ := hB
  obtain ⟨C, c1, c2⟩ := hC
  refine ⟨C, B, c2, b2, ?_⟩
  unfold integrate4Fine
  dsimp only
  rw [if_neg (by rw [hneg]; simp), if_pos ⟨hk, by rw [hfast]; simp⟩, ← hps, c1, b1]
  rfl

section Example
/-- A decay into three massless particles in equilibrium, on three momenta. -/
private def fineSp : Fin 4 → Species := fun i =>
  { name := "X", mass := if i = 0 then 2 else 0, dof := 2, fermion := true, thermalDyn := true, Q := 0,
    grid := [0, 1, 2], fastDecay := false, lifetime := 0 }
private noncomputable def fineSt : Fin 4 → PState ℕ := fun _ =>
  { T := 1, aT := 1, Tdec := 0, dist := [0, 0, 0], coll := [], integrals := [],
    tDec := 0, decayed := false, density := 0, histDist := [], histColl := [], histT := [], histDensity := [] }
private noncomputable def fineP : Params :=
  { log := true, m := 1, T := 1, a := 1, aIni := 1, x := 1, y := none, aT := 1, t := 1, H := 1, rho := none,
    S := none, Neff := 3, dy := 1, dx := 1, h := 1 }
private noncomputable def fineInt : Int4 ℕ :=
  { sp := fineSp, st := fineSt, side := ![-1, 1, 1, 1], Ms := [⟨![0, 1, 2, 3], 1, 0, 0⟩],
    GF := 1, majorana := true, mult := 1, kind := .full, neglect := false, min1 := 0, max1 := 2, min2 := 0,
    max2 := 2, max3 := 2, ub := 2, creationFast := false, br := none, num := 0, total := fun _ => 0 }

/-- The array of the middle momentum is a chord, whatever the values are. -/
example : ∃ C B : List ℝ, ∃ k : ℝ, integrate4Fine fineInt fineP [[1, 0]] (some 2) = .ok (.two (C.map (· * k)) (B.map (· * k))) ∧
    C.length = 3 ∧ B.length = 3 := by
  have hcut : gridCut4 [(0 : ℝ), 1, 2] 2 = ([0, 1, 2], []) := by
    norm_num [gridCut4, searchsortedLeft, pySliceTo, pySliceFrom, pyZeros]
  have hcut' : gridCut4 (fineInt.sp 0).grid fineInt.ub = ([0, 1, 2], []) := hcut
  have hp : [0, 1, 2] = (gridCut4 (fineInt.sp 0).grid fineInt.ub).1.map (· / fineP.aT) := by
    rw [hcut']; simp [fineP]
  obtain ⟨C, B, h1, h2, h3⟩ := C94_integrate fineInt fineP [[1, 0]] 2 le_rfl (by change [1, 0].Perm [0, 1]; decide) rfl
    (Or.inl rfl) rfl one_pos (by simp [reactionTypeSum, fineInt, Int4.reaction]) [0, 1, 2] hp (by simp) (by simp)
    (by rw [hcut']; simp [StrictInc]) _ (by
      intro q _
      unfold particleDistribution
      rw [if_pos (by simp [inEq, fineInt, fineSp, fineSt])])
  rw [hcut'] at h3
  simp only [List.append_nil] at h3
  exact ⟨C, B, _, h3, h1.1, h2.1⟩
end Example

end PyBBN
