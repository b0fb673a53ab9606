import Verif.Props.DynArray
import Verif.Props.Particle
import Verif.Props.Selection
import Mathlib.Tactic.FieldSimp
/-!
# C50: the QCD transition
-/
namespace PyBBN
open DynArr

section
variable {ι : Type*}

/-- Specification: entropy degrees of freedom of the relativistic equilibrium species. -/
noncomputable def eqDof (T : ℝ) (l : List (Part ι)) : ℝ :=
  open Classical in
  ((l.filter fun x => x.1.mass < T ∧ x.2.Tdec < x.2.T ∧ x.1.thermalDyn = true).map fun x =>
    if x.1.fermion then 7 / 8 * x.1.dof else x.1.dof).sum

theorem entropicDof_eq (T : ℝ) (l : List (Part ι)) : entropicDof T l = eqDof T l := by
  classical
  unfold entropicDof eqDof
  have : ∀ d : ℝ, l.foldl (fun d x => d + dofOf T x) d = d +
      ((l.filter fun x => x.1.mass < T ∧ x.2.Tdec < x.2.T ∧ x.1.thermalDyn = true).map fun x =>
    if x.1.fermion then 7 / 8 * x.1.dof else x.1.dof).sum := by
    induction l with
    | nil => intro d; simp
    | cons a l ih =>
      intro d
      rw [List.foldl_cons, ih, List.filter_cons]
      have hq : (T > a.1.mass ∧ inEq a.1 a.2 = true) ↔
          (a.1.mass < T ∧ a.2.Tdec < a.2.T ∧ a.1.thermalDyn = true) := by
        rw [inEq_iff]
      unfold dofOf
      by_cases h : a.1.mass < T ∧ a.2.Tdec < a.2.T ∧ a.1.thermalDyn = true
      · rw [if_pos (hq.mpr h), if_pos (decide_eq_true h), List.map_cons, List.sum_cons]
        split_ifs <;> ring
      · rw [if_neg (fun k => h (hq.mp k)), if_neg (fun k => h (of_decide_eq_true k))]
        ring
  rw [this 0, zero_add]

theorem eqDof_perm (T : ℝ) {l l' : List (Part ι)} (h : l.Perm l') : eqDof T l = eqDof T l' := by
  classical
  unfold eqDof
  exact ((h.filter _).map _).sum_eq

theorem pyGet_neg_one {α : Type*} (l : List α) (x : α) : pyGet (l ++ [x]) (-1) = .ok x := by
  unfold pyGet pyIndex
  have h1 : ¬ ((0 : ℤ) ≤ -1 ∧ (-1 : ℤ) < (l ++ [x]).length) := by omega
  have h2 : (-((l ++ [x]).length : ℤ) ≤ -1 ∧ (-1 : ℤ) < 0) := by simp
  rw [if_neg h1, if_pos h2]
  simp

theorem removeAll_ok {γ : Type*} [DecidableEq γ] (qs l : List γ) (h : qs.Subperm l) :
    ∃ r, removeAll l qs = .ok r ∧ (qs ++ r).Perm l := by
  induction qs generalizing l with
  | nil => exact ⟨l, rfl, by simp⟩
  | cons q qs ih =>
    have hq : q ∈ l := h.subset (by simp)
    rw [removeAll, if_pos hq]
    have hs : qs.Subperm (l.erase q) := by
      have := h.erase q
      simpa using this
    obtain ⟨r, e, p⟩ := ih _ hs
    exact ⟨r, e, (List.Perm.cons q p).trans (List.perm_cons_erase hq).symm⟩

theorem removeAll_missing {γ : Type*} [DecidableEq γ] (qs l : List γ) (h : ¬ qs.Subperm l) :
    removeAll l qs = .error .valueError := by
  induction qs generalizing l with
  | nil => exact absurd (List.nil_subperm) h
  | cons q qs ih =>
    rw [removeAll]
    by_cases hq : q ∈ l
    · rw [if_pos hq]
      apply ih
      intro k
      apply h
      exact (List.subperm_cons q |>.mpr k).trans (List.perm_cons_erase hq).symm.subperm
    · rw [if_neg hq]

/-- The history table reached by recording `rows`. -/
def Recorded {Row : Type*} (zero : Row) (d : DynArr Row) (rows : List Row) : Prop :=
  ∃ ops, (DynArr.empty zero).run zero ops = .ok d ∧ specRun [] ops = some rows

theorem Recorded.rep {Row : Type*} {zero : Row} {d : DynArr Row} {rows : List Row}
    (h : Recorded zero d rows) : Rep d rows := by
  obtain ⟨ops, e, s⟩ := h
  obtain ⟨s', e', r⟩ := rep_run zero (rep_empty zero) ops s
  rw [e] at e'; cases e'; exact r

theorem DynArr.Rep.column {Row β : Type*} {d : DynArr Row} {rows : List Row} (h : Rep d rows)
    (col : Row → β) : d.column col = rows.map col := by
  unfold DynArr.column pySliceTo
  rw [h.len]
  simp only [Int.natCast_nonneg, if_true, Int.toNat_natCast, ← List.map_take, h.pre]

variable {Row γ : Type*} [DecidableEq γ]

/-- The particles that disappear at the transition: the six quarks and the gluon under the names they have in
the library (library/SM.py 60, 395–445). -/
def coloured : List String :=
  ["Gluon", "Up quark", "Down quark", "Charm quark", "Strange quark", "Top quark", "Bottom quark"]

theorem coloured_iff (n : String) : n ∈ coloured ↔ n ∈ quarkNames := by
  simp only [coloured, quarkNames, List.mem_cons]
  tauto

/-- **C50.** On a universe that has recorded at least two rows (the last one `r1`, the one before it
`r0`), with positive degrees of freedom before and after and the quark interactions present:
the transition succeeds and
* the last row, and only it, is dropped from the history;
* `aT` is chosen so that (degrees of freedom) · `aT³` equals its value before, taken at row `r0`;
* the temperature is `aT/a` with `a = x/m`;
* the species are the previous ones except quarks and gluons, plus the hadrons, each once, in the
  standard order;
* the quark interactions are gone and the new ones are appended. -/
theorem C50_transition (c : Consts) (zero : Row) (aTcol : Row → ℝ) (dens : PState ι → Params → ℝ)
    (rho ent : List (Part ι) → ℝ) (hs : List (Part ι)) (qs : List γ) (had sec : Option (List γ))
    (u : QUni ι Row γ) (rows : List Row) (r0 r1 : Row)
    (hdata : Recorded zero u.data (rows ++ [r0, r1]))
    (hq : qs.Subperm u.interactions)
    (hb : 0 < eqDof u.params.T u.particles)
    (ha : 0 < eqDof u.params.T ((u.particles.filter fun x => x.1.name ∉ coloured) ++
      hs.map fun x => (x.1, setParams x.1 dens u.params x.2))) :
    ∃ v, qcdTransition c aTcol dens rho ent (some hs) (some qs) had sec u = .ok v ∧
      Rep v.data (rows ++ [r0]) ∧
      eqDof u.params.T ((u.particles.filter fun x => x.1.name ∉ coloured) ++
        hs.map fun x => (x.1, setParams x.1 dens u.params x.2)) * v.params.aT ^ 3 =
        eqDof u.params.T u.particles * aTcol r0 ^ 3 ∧
      (0 < aTcol r0 → 0 < v.params.aT) ∧
      v.params.x = u.params.x ∧ v.params.T = v.params.aT / (u.params.x / u.params.m) ∧
      (v.particles.map Prod.fst).Perm
        ((u.particles.map Prod.fst).filter (fun s => s.name ∉ coloured) ++ hs.map Prod.fst) ∧
      v.particles.Pairwise (Before (fun x => x.1.mass) (fun x => x.1.name)) ∧
      (qs ++ v.interactions).Perm (u.interactions ++ had.getD [] ++ sec.getD []) := by
  simp only [coloured_iff] at ha ⊢
  classical
  have rep := hdata.rep
  obtain ⟨d', ed, rd⟩ := rep_truncate rep (by simp)
  have hdl : (rows ++ [r0, r1]).dropLast = rows ++ [r0] := by
    rw [List.dropLast_append_of_ne_nil (by simp)]; rfl
  rw [hdl] at rd
  have hkeep : particleFilter (fun x : Part ι => x.1.name) quarkNames u.particles =
      u.particles.filter fun x => x.1.name ∉ quarkNames := by
    unfold particleFilter
    apply List.filter_congr
    intro x _
    simp
  set K := (u.particles.filter fun x => x.1.name ∉ quarkNames) ++
      hs.map fun x => (x.1, setParams x.1 dens u.params x.2) with hK
  have hadd : (addParticles dens u.params
      (particleFilter (fun x : Part ι => x.1.name) quarkNames u.particles) hs).Perm K := by
    unfold addParticles
    rw [hkeep]
    exact (C53_orderer _ _ _).1
  have hsorted : (addParticles dens u.params
      (particleFilter (fun x : Part ι => x.1.name) quarkNames u.particles) hs).Pairwise
      (Before (fun x => x.1.mass) (fun x => x.1.name)) := orderer_sorted _ _ _
  obtain ⟨is, ei, pi⟩ : ∃ r, (if u.interactions = [] then (.ok [] : Except Err (List γ))
      else removeAll u.interactions qs) = .ok r ∧ (qs ++ r).Perm u.interactions := by
    by_cases h0 : u.interactions = []
    · rw [if_pos h0]
      refine ⟨[], rfl, ?_⟩
      rw [h0] at hq ⊢
      have : qs = [] := List.eq_nil_of_subset_nil hq.subset
      simp [this]
    · rw [if_neg h0]
      exact removeAll_ok qs _ hq
  have hafter : entropicDof u.params.T (addParticles dens u.params
      (particleFilter (fun x : Part ι => x.1.name) quarkNames u.particles) hs) =
      eqDof u.params.T K := by
    rw [entropicDof_eq]; exact eqDof_perm _ hadd
  have hcol : pyGet (d'.column aTcol) (-1) = .ok (aTcol r0) := by
    rw [rd.column, List.map_append, List.map_singleton]
    exact pyGet_neg_one _ _
  unfold qcdTransition
  simp only [ed, hcol, ei]
  rw [if_neg (by rw [hafter]; exact ha.ne')]
  refine ⟨_, rfl, rd, ?_, ?_, rfl, rfl, ?_, ?_, ?_⟩
  · simp only [Params.update]
    rw [hafter, entropicDof_eq, mul_pow]
    have hr : 0 ≤ eqDof u.params.T u.particles / eqDof u.params.T K := by positivity
    rw [← Real.rpow_natCast ((eqDof u.params.T u.particles / eqDof u.params.T K) ^ ((1 : ℝ) / 3)) 3,
      ← Real.rpow_mul hr]
    norm_num
    field_simp
  · intro h0
    simp only [Params.update]
    rw [hafter, entropicDof_eq]
    have : 0 < eqDof u.params.T u.particles / eqDof u.params.T K := div_pos hb ha
    exact mul_pos h0 (Real.rpow_pos_of_pos this _)
  · simp only [List.map_map]
    have e1 : (Prod.fst ∘ fun x : Part ι => (x.1, particleUpdate x.1 dens
        (Params.update c { u.params with aT := aTcol r0 *
          (entropicDof u.params.T u.particles / entropicDof u.params.T
            (addParticles dens u.params (particleFilter (fun x : Part ι => x.1.name) quarkNames
              u.particles) hs)) ^ ((1 : ℝ) / 3) }
          (rho (addParticles dens u.params (particleFilter (fun x : Part ι => x.1.name) quarkNames
            u.particles) hs))
          (ent (addParticles dens u.params (particleFilter (fun x : Part ι => x.1.name) quarkNames
            u.particles) hs))) x.2)) = Prod.fst := rfl
    rw [e1]
    refine (hadd.map Prod.fst).trans ?_
    rw [hK, List.map_append, List.map_map]
    have e2 : (Prod.fst ∘ fun x : Part ι => (x.1, setParams x.1 dens u.params x.2)) = Prod.fst := rfl
    rw [e2, List.filter_map]
    exact List.Perm.refl _
  · rw [List.pairwise_map]
    exact hsorted
  · rw [← List.append_assoc, ← List.append_assoc]
    exact (pi.append_right _).append_right _

/-- **C50 (failures).** Without hadrons the call raises `TypeError`; with a single recorded row
`IndexError`. -/
theorem C50_failures (c : Consts) (zero : Row) (aTcol : Row → ℝ) (dens : PState ι → Params → ℝ)
    (rho ent : List (Part ι) → ℝ) (hs : List (Part ι)) (q had sec : Option (List γ))
    (u : QUni ι Row γ) (rows : List Row) (hdata : Recorded zero u.data rows) (h : rows ≠ []) :
    qcdTransition c aTcol dens rho ent none q had sec u = .error .typeError ∧
    (rows.length = 1 →
      qcdTransition c aTcol dens rho ent (some hs) q had sec u = .error .indexError) := by
  obtain ⟨d', ed, rd⟩ := rep_truncate hdata.rep h
  constructor
  · unfold qcdTransition; simp only [ed]
  · intro h1
    obtain ⟨r, rfl⟩ := List.length_eq_one_iff.mp h1
    have : d'.column aTcol = [] := by rw [rd.column]; rfl
    unfold qcdTransition
    simp only [ed, this]
    rfl

/-- **C50 (quark interactions).** If some quark interaction is not registered, `list.remove` raises. -/
theorem C50_unregistered (c : Consts) (zero : Row) (aTcol : Row → ℝ) (dens : PState ι → Params → ℝ)
    (rho ent : List (Part ι) → ℝ) (hs : List (Part ι)) (qs : List γ) (had sec : Option (List γ))
    (u : QUni ι Row γ) (rows : List Row) (r0 r1 : Row)
    (hdata : Recorded zero u.data (rows ++ [r0, r1]))
    (hi : u.interactions ≠ []) (hq : ¬ qs.Subperm u.interactions)
    (ha : eqDof u.params.T ((u.particles.filter fun x => x.1.name ∉ coloured) ++
      hs.map fun x => (x.1, setParams x.1 dens u.params x.2)) ≠ 0) :
    qcdTransition c aTcol dens rho ent (some hs) (some qs) had sec u = .error .valueError := by
  simp only [coloured_iff] at ha
  classical
  obtain ⟨d', ed, rd⟩ := rep_truncate hdata.rep (by simp)
  have hdl : (rows ++ [r0, r1]).dropLast = rows ++ [r0] := by
    rw [List.dropLast_append_of_ne_nil (by simp)]; rfl
  rw [hdl] at rd
  have hcol : pyGet (d'.column aTcol) (-1) = .ok (aTcol r0) := by
    rw [rd.column, List.map_append, List.map_singleton]
    exact pyGet_neg_one _ _
  have hkeep : particleFilter (fun x : Part ι => x.1.name) quarkNames u.particles =
      u.particles.filter fun x => x.1.name ∉ quarkNames := by
    unfold particleFilter
    apply List.filter_congr
    intro x _
    simp
  have hafter : entropicDof u.params.T (addParticles dens u.params
      (particleFilter (fun x : Part ι => x.1.name) quarkNames u.particles) hs) ≠ 0 := by
    rw [entropicDof_eq]
    have : (addParticles dens u.params
      (particleFilter (fun x : Part ι => x.1.name) quarkNames u.particles) hs).Perm
      ((u.particles.filter fun x => x.1.name ∉ quarkNames) ++
      hs.map fun x => (x.1, setParams x.1 dens u.params x.2)) := by
      unfold addParticles
      rw [hkeep]
      exact (C53_orderer _ _ _).1
    rw [eqDof_perm _ this]; exact ha
  unfold qcdTransition
  simp only [ed, hcol]
  rw [if_neg hafter, if_neg hi, removeAll_missing qs _ hq]

/-- **C50 (no history).** Called on a universe that has recorded nothing, the transition does not fail:
truncating the empty table exposes unused rows, and `aT` — hence the temperature — becomes the `aT` of
such a zero row times a factor, i.e. zero. -/
theorem C50_no_history (c : Consts) (zero : Row) (aTcol : Row → ℝ) (hz : aTcol zero = 0)
    (dens : PState ι → Params → ℝ) (rho ent : List (Part ι) → ℝ) (hs : List (Part ι))
    (u : QUni ι Row γ) (hdata : u.data = DynArr.empty zero) (v : QUni ι Row γ)
    (h : qcdTransition c aTcol dens rho ent (some hs) none none none u = .ok v) :
    v.params.aT = 0 ∧ v.params.T = 0 := by
  classical
  have ed : u.data.truncate = .ok ⟨-1, 10, List.replicate 9 zero⟩ := by rw [hdata]; rfl
  have hcol : pyGet ((⟨-1, 10, List.replicate 9 zero⟩ : DynArr Row).column aTcol) (-1) =
      .ok (aTcol zero) := rfl
  unfold qcdTransition at h
  simp only [ed, hcol] at h
  split_ifs at h with h0
  cases h
  simp [Params.update, hz]

end

/-! Example: a photon-like boson and a quark; the pion-like boson replaces the quark. -/

/-- A massless boson with two degrees of freedom in equilibrium. -/
noncomputable def exPhoton : Species := ⟨"Photon", 0, 2, false, true, 0, [0, 1], false, 0⟩
/-- A massless quark. -/
noncomputable def exQuark : Species := ⟨"Up quark", 0, 12, true, true, 0, [0, 1], false, 0⟩
/-- A state in equilibrium at temperature 1. -/
noncomputable def exState : PState ℕ := ⟨1, 1, 0, [], [], [], 0, false, 0, [], [], [], []⟩

example : 0 < eqDof 1 [(exPhoton, exState), (exQuark, exState)] ∧
    eqDof 1 [(exPhoton, exState), (exQuark, exState)] = 2 + 7 / 8 * 12 := by
  constructor <;> norm_num [eqDof, exPhoton, exQuark, exState]

/-- Two recorded rows (the values of `aT`), one quark interaction. -/
noncomputable def exUni (d : DynArr ℝ) : QUni ℕ ℝ ℕ :=
  ⟨d, ⟨false, 1, 1, 1, 1, 1, none, 1, 0, 0, none, none, 0, 0, 1, 1⟩,
    [(exPhoton, exState), (exQuark, exState)], [5, 7]⟩

example (d : DynArr ℝ) (hd : Recorded 0 d [3, 4]) :
    ∃ v, qcdTransition ⟨1, 1⟩ id (fun _ _ => 0) (fun _ => 1) (fun _ => 1) (some []) (some [5])
      (some [6]) none (exUni d) = .ok v ∧ 2 * v.params.aT ^ 3 = (2 + 7 / 8 * 12) * 3 ^ 3 ∧
      ([5] ++ v.interactions).Perm ([5, 7] ++ [6] ++ []) := by
  have hk : eqDof (exUni d).params.T (((exUni d).particles.filter fun x => x.1.name ∉ coloured) ++
      ([] : List (Part ℕ)).map fun x => (x.1, setParams x.1 (fun _ _ => 0) (exUni d).params x.2)) = 2 := by
    norm_num [exUni, eqDof, exPhoton, exQuark, exState, coloured, List.filter_cons]
    rw [if_pos (by decide)]
    norm_num [List.filter_cons]
  have hb : eqDof (exUni d).params.T (exUni d).particles = 2 + 7 / 8 * 12 := by
    norm_num [exUni, eqDof, exPhoton, exQuark, exState]
  obtain ⟨v, e, _, h, _, _, _, _, _, hi⟩ := C50_transition ⟨1, 1⟩ 0 id (fun _ _ => 0)
    (fun _ => 1) (fun _ => 1) [] [5] (some [6]) none (exUni d) [] 3 4 hd (by simp [exUni])
    (by rw [hb]; norm_num) (by rw [hk]; norm_num)
  refine ⟨v, e, ?_, hi⟩
  rw [hk, hb] at h
  exact h

example : ∃ d, Recorded (0 : ℝ) d [3, 4] := by
  obtain ⟨d, e, _⟩ := C01_history_is_log (β := ℝ) (0 : ℝ) [.append 3, .append 4] [3, 4]
    (by simp [specRun, specStep])
  exact ⟨d, _, e, by simp [specRun, specStep]⟩

end PyBBN
