import Verif.Model.MesonElements
import Mathlib.Tactic
/-!
# C136: the declarations of the library do not depend on the unit of energy
-/
namespace PyBBN

set_option linter.unusedSectionVars false

variable {S : Type*} [DecidableEq S]

/-! ## Specification: quantities in another unit -/

/-- The number which expresses a mass or a decay constant (dimension 1) when the unit of energy counts `lam` instead of 1. -/
def LibAttr.inUnit (A : LibAttr S) (lam : ℝ) : LibAttr S :=
  { A with mass := fun s => lam * A.mass s, decayConstant := fun s => lam * A.decayConstant s }

/-- The constant of Fermi has dimension -2, the other constants none. -/
noncomputable def LibConst.inUnit (c : LibConst) (lam : ℝ) : LibConst := { c with GF := c.GF / lam ^ 2 }

/-- Squared amplitudes of three particles have dimension 2, of four particles none; `K1` and `K2` multiply products of four momenta or
masses. -/
noncomputable def Amp.inUnit (lam : ℝ) : Amp → Amp
  | .four Ms => .four (Ms.map fun M => ⟨M.K1 / lam ^ 4, M.K2 / lam ^ 4, M.K, M.order⟩)
  | .three K => .three (lam ^ 2 * K)

noncomputable def Decl.inUnit (lam : ℝ) (d : Decl S) : Decl S := { d with amp := d.amp.inUnit lam }

/-! ## Reactions -/

theorem sum_mass_inUnit (A : LibAttr S) (lam : ℝ) (l : List (Item S)) :
    (l.map fun x => (A.inUnit lam).mass x.specie).sum = lam * (l.map fun x => A.mass x.specie).sum := by
  rw [← List.sum_map_mul_left]
  rfl

theorem reactionOf_inUnit (A : LibAttr S) {lam : ℝ} (hl : 0 < lam) (perm : List (Item S)) (i : ℕ) :
    reactionOf (A.inUnit lam).toAttr perm i = reactionOf A.toAttr perm i := by
  have hs : ∀ l : List (Item S), sortItems (A.inUnit lam).toAttr l = sortItems A.toAttr l := fun _ => rfl
  have hc : crossAll (A.inUnit lam).toAttr perm i = crossAll A.toAttr perm i := rfl
  have hm : ∀ (x : S) (l : List (Item S)), (A.inUnit lam).mass x ≤ (l.map fun x => (A.inUnit lam).mass x.specie).sum ↔
      A.mass x ≤ (l.map fun x => A.mass x.specie).sum := by
    intro x l
    rw [sum_mass_inUnit]
    exact mul_le_mul_iff_right₀ hl
  unfold reactionOf
  dsimp only
  rw [hc]
  simp only [hs]
  cases List.take 1 ((crossAll A.toAttr perm i).filter (·.side = -1)) ++
      sortItems A.toAttr (List.drop 1 ((crossAll A.toAttr perm i).filter (·.side = -1))) with
  | nil => rfl
  | cons h t =>
    classical
    dsimp only
    congr 1
    exact if_congr (or_congr (and_congr Iff.rfl (hm _ _)) (exists_congr fun y => and_congr Iff.rfl (hm _ _))) rfl rfl

/-- **C136 (reactions).** The reactions generated from a declaration, including those dropped at threshold, do not depend on the
unit of energy. -/
theorem C136_reactions (A : LibAttr S) {lam : ℝ} (hl : 0 < lam) (p0 p1 : List S) (a0 a1 : List Bool) :
    reactionsMap (A.inUnit lam).toAttr p0 p1 a0 a1 = reactionsMap A.toAttr p0 p1 a0 a1 := by
  unfold reactionsMap
  simp only [reactionOf_inUnit A hl]

theorem alreadyThere_inUnit (A : LibAttr S) {lam : ℝ} (hl : 0 < lam) (l : List (Decl S)) (s : S) :
    alreadyThere (A.inUnit lam) (l.map (Decl.inUnit lam)) s = alreadyThere A l s := by
  unfold alreadyThere
  have h : (∃ d ∈ l.map (Decl.inUnit lam), ∃ rs, reactionsMap (A.inUnit lam).toAttr d.left d.right d.antiL d.antiR = .ok rs ∧
      ∃ r ∈ rs, ∃ x ∈ r, (A.inUnit lam).name x.specie = (A.inUnit lam).name s) ↔
      ∃ d ∈ l, ∃ rs, reactionsMap A.toAttr d.left d.right d.antiL d.antiR = .ok rs ∧
      ∃ r ∈ rs, ∃ x ∈ r, A.name x.specie = A.name s := by
    constructor
    · rintro ⟨d, hd, rs, h1, h2⟩
      obtain ⟨e, he, rfl⟩ := List.mem_map.mp hd
      rw [C136_reactions A hl] at h1
      exact ⟨e, he, rs, h1, h2⟩
    · rintro ⟨d, hd, rs, h1, h2⟩
      exact ⟨d.inUnit lam, List.mem_map.mpr ⟨d, hd, rfl⟩, rs, by rw [C136_reactions A hl]; exact h1, h2⟩
  exact decide_eq_decide.mpr h

/-! ## Declarations -/

theorem weakM_inUnit (c : LibConst) (lam K1 K2 : ℝ) (o : Ord4) :
    weakM (c.inUnit lam) K1 K2 o = ⟨(weakM c K1 K2 o).K1 / lam ^ 4, (weakM c K1 K2 o).K2 / lam ^ 4, (weakM c K1 K2 o).K,
      (weakM c K1 K2 o).order⟩ := by
  simp only [weakM, LibConst.inUnit, M4.mk.injEq, and_true]
  constructor <;> rw [div_pow, ← pow_mul] <;> ring

theorem sterileM_inUnit (c : LibConst) (lam θ K1 K2 : ℝ) (o : Ord4) :
    sterileM (c.inUnit lam) θ K1 K2 o = ⟨(sterileM c θ K1 K2 o).K1 / lam ^ 4, (sterileM c θ K1 K2 o).K2 / lam ^ 4,
      (sterileM c θ K1 K2 o).K, (sterileM c θ K1 K2 o).order⟩ := by
  simp only [sterileM, weakM_inUnit, M4.mk.injEq, and_true]
  constructor <;> ring

theorem couplingL_inUnit (A : LibAttr S) (c : LibConst) (lam : ℝ) (l n : S) :
    couplingL (A.inUnit lam) (c.inUnit lam) l n = couplingL A c l n := rfl

theorem ratio_inUnit (A : LibAttr S) {lam : ℝ} (hl : 0 < lam) (a b : S) :
    (A.inUnit lam).mass a / (A.inUnit lam).mass b = A.mass a / A.mass b :=
  mul_div_mul_left _ _ hl.ne'

theorem leptonInteractions_inUnit (A : LibAttr S) (c : LibConst) (lam : ℝ) (leptons neutrinos : List S) :
    leptonInteractions (A.inUnit lam) (c.inUnit lam) leptons neutrinos =
      (leptonInteractions A c leptons neutrinos).map (Decl.inUnit lam) := by
  unfold leptonInteractions
  simp only [List.map_flatMap]
  refine List.flatMap_congr fun l _ => List.flatMap_congr fun n _ => ?_
  split_ifs with h
  · simp only [List.map_flatMap]
    refine List.flatMap_congr fun l' _ => List.flatMap_congr fun n' _ => ?_
    have e : leptonsCC (c.inUnit lam) n n' l l' = (leptonsCC c n n' l l').inUnit lam := by
      simp [leptonsCC, Decl.inUnit, Amp.inUnit, weakM_inUnit]
    rw [e]
    show (if A.flavour n = A.flavour l ∧ A.flavour n' = A.flavour l' then _ else _) = _
    split_ifs <;> rfl
  · rfl

/-- The coefficient `(G_F θ f …)² M⁴ …` with dimensionless factors. -/
theorem meson_coeff {lam : ℝ} (hl : 0 < lam) (G t f M : ℝ) :
    (G / lam ^ 2 * t * (lam * f)) ^ 2 * (lam * M) ^ 4 = lam ^ 2 * ((G * t * f) ^ 2 * M ^ 4) := by
  have := hl.ne'
  field_simp

theorem decayChargedPion_inUnit (A : LibAttr S) (c : LibConst) {lam : ℝ} (hl : 0 < lam) (a b n : S) :
    decayChargedPion (A.inUnit lam) (c.inUnit lam) a b n = (decayChargedPion A c a b n).map (Decl.inUnit lam) := by
  have h := meson_coeff hl c.GF 1 (A.decayConstant a) (A.mass b)
  simp only [decayChargedPion, List.map_cons, List.map_nil, Decl.inUnit, Amp.inUnit, ratio_inUnit A hl]
  have e : 2 * ((c.inUnit lam).GF * (A.inUnit lam).decayConstant a * (c.inUnit lam).CKM 1 1) ^ 2 * (A.inUnit lam).mass b ^ 4 *
      ((A.mass a / A.mass b) ^ 2 - 1) =
      lam ^ 2 * (2 * (c.GF * A.decayConstant a * c.CKM 1 1) ^ 2 * A.mass b ^ 4 * ((A.mass a / A.mass b) ^ 2 - 1)) := by
    show 2 * (c.GF / lam ^ 2 * (lam * A.decayConstant a) * c.CKM 1 1) ^ 2 * (lam * A.mass b) ^ 4 * _ = _
    linear_combination (2 * c.CKM 1 1 ^ 2 * ((A.mass a / A.mass b) ^ 2 - 1)) * h
  rw [e]

theorem decayNeutralPion_inUnit (A : LibAttr S) (c : LibConst) {lam : ℝ} (hl : 0 < lam) (a b : S) :
    decayNeutralPion (A.inUnit lam) (c.inUnit lam) a b = (decayNeutralPion A c a b).map (Decl.inUnit lam) := by
  simp only [decayNeutralPion, List.map_cons, List.map_nil, Decl.inUnit, Amp.inUnit]
  have e : (c.inUnit lam).alpha ^ 2 * (A.inUnit lam).mass a ^ 4 / (2 * Real.pi ^ 2 * (A.inUnit lam).decayConstant a ^ 2) =
      lam ^ 2 * (c.alpha ^ 2 * A.mass a ^ 4 / (2 * Real.pi ^ 2 * A.decayConstant a ^ 2)) := by
    show c.alpha ^ 2 * (lam * A.mass a) ^ 4 / (2 * Real.pi ^ 2 * (lam * A.decayConstant a) ^ 2) = _
    have := hl.ne'
    rw [show c.alpha ^ 2 * (lam * A.mass a) ^ 4 = lam ^ 2 * (lam ^ 2 * (c.alpha ^ 2 * A.mass a ^ 4)) by ring,
      show 2 * Real.pi ^ 2 * (lam * A.decayConstant a) ^ 2 = lam ^ 2 * (2 * Real.pi ^ 2 * A.decayConstant a ^ 2) by ring,
      mul_div_mul_left _ _ (by positivity), mul_div_assoc]
  rw [e]

theorem fourMeson_inUnit (lam : ℝ) (p0 p1 p2 p3 : S) (a0 a1 a2 a3 : Bool) (K : ℝ) :
    fourMeson p0 p1 p2 p3 a0 a1 a2 a3 K = (fourMeson p0 p1 p2 p3 a0 a1 a2 a3 K).map (Decl.inUnit lam) := by
  simp [fourMeson, Decl.inUnit, Amp.inUnit, weakConst]

theorem threeMeson_inUnit (lam : ℝ) (p0 p1 p2 : S) (a0 a1 a2 : Bool) (K : ℝ) :
    threeMeson p0 p1 p2 a0 a1 a2 (lam ^ 2 * K) = (threeMeson p0 p1 p2 a0 a1 a2 K).map (Decl.inUnit lam) := by
  simp [threeMeson, Decl.inUnit, Amp.inUnit]

section Chains
variable (A : LibAttr S) (c : LibConst) {lam : ℝ} (hl : 0 < lam) (m : Chain S)
include hl

theorem pi0Decay_inUnit (l : List (Decl S)) :
    pi0Decay (A.inUnit lam) (c.inUnit lam) m (l.map (Decl.inUnit lam)) = (pi0Decay A c m l).map (Decl.inUnit lam) := by
  rw [pi0Decay, pi0Decay, List.map_append, decayNeutralPion_inUnit A c hl]

theorem piDecay_inUnit (l : List (Decl S)) :
    piDecay (A.inUnit lam) (c.inUnit lam) m (l.map (Decl.inUnit lam)) = (piDecay A c m l).map (Decl.inUnit lam) := by
  simp only [piDecay, alreadyThere_inUnit A hl, decayChargedPion_inUnit A c hl, leptonInteractions_inUnit, List.map_append]
  split_ifs <;> simp

theorem withPi_inUnit (l : List (Decl S)) :
    withPi (A.inUnit lam) (c.inUnit lam) m (l.map (Decl.inUnit lam)) = (withPi A c m l).map (Decl.inUnit lam) := by
  simp only [withPi, alreadyThere_inUnit A hl]
  split_ifs
  · rfl
  · exact piDecay_inUnit A c hl m l

theorem withPi0_inUnit (l : List (Decl S)) :
    withPi0 (A.inUnit lam) (c.inUnit lam) m (l.map (Decl.inUnit lam)) = (withPi0 A c m l).map (Decl.inUnit lam) := by
  simp only [withPi0, alreadyThere_inUnit A hl]
  split_ifs
  · rfl
  · exact pi0Decay_inUnit A c hl m l

variable (ME ME' : String → ℝ)

/-- The elements of the chains: constants of three particles have dimension 2, those of four none. -/
def ElementsScale (lam : ℝ) (ME ME' : String → ℝ) : Prop :=
  (∀ k ∈ ["RhoPlusPiPlusPi0", "Rho0PiPlusPiMin", "OmegaPi0Gamma", "EtaPrimeRho0Gamma", "PhiKPlusKMin", "PhiK0LK0S", "PhiRho0Pi0",
    "EtaTwoGamma", "KaonMinMuonNumu", "KaonMinPiMinPi0", "KaonSTwoPi0", "KaonSPiPlusPiMin"], ME' k = lam ^ 2 * ME k) ∧
  ∀ k ∈ ["EtaThreePi0", "EtaPiPlusPiMinPi0", "EtaPiPlusPiMinGamma", "OmegaPiPlusPiMinPi0", "EtaPrimePiPlusPiMinEta",
    "EtaPrimeTwoPi0Eta", "KaonMinPi0ElecNue", "KaonMinPiPlusTwoPiMin", "KaonLPiPlusElecNue", "KaonLPiPlusMuonNumu", "KaonLThreePi0",
    "KaonLPiPlusPiMinPi0"], ME' k = ME k

variable {ME ME'} (hE : ElementsScale lam ME ME')
include hE

theorem mesonDecay_inUnit (x : Meson) (l : List (Decl S)) :
    mesonDecay (A.inUnit lam) (c.inUnit lam) ME' m x (l.map (Decl.inUnit lam)) = (mesonDecay A c ME m x l).map (Decl.inUnit lam) := by
  obtain ⟨h3, h4⟩ := hE
  simp only [List.forall_mem_cons, List.not_mem_nil, false_imp_iff, implies_true, and_true] at h3 h4
  obtain ⟨a1, a2, a3, a4, a5, a6, a7, a8, a9, a10, a11, a12⟩ := h3
  obtain ⟨b1, b2, b3, b4, b5, b6, b7, b8, b9, b10, b11, b12⟩ := h4
  have w := withPi_inUnit A c hl m
  have w0 := withPi0_inUnit A c hl m
  have f := @fourMeson_inUnit S _ lam
  have t := @threeMeson_inUnit S _ lam
  have kaon : ∀ l, kaonDecay (A.inUnit lam) (c.inUnit lam) ME' m (l.map (Decl.inUnit lam)) =
      (kaonDecay A c ME m l).map (Decl.inUnit lam) := by
    intro l
    simp only [kaonDecay, w, w0, a9, a10, b7, b8, t, List.map_append, ← f]
  have kaonL : ∀ l, kaonLDecay (A.inUnit lam) (c.inUnit lam) ME' m (l.map (Decl.inUnit lam)) =
      (kaonLDecay A c ME m l).map (Decl.inUnit lam) := by
    intro l
    simp only [kaonLDecay, w, w0, b9, b10, b11, b12, List.map_append, ← f]
  have kaonS : ∀ l, kaonSDecay (A.inUnit lam) (c.inUnit lam) ME' m (l.map (Decl.inUnit lam)) =
      (kaonSDecay A c ME m l).map (Decl.inUnit lam) := by
    intro l
    simp only [kaonSDecay, w, w0, a11, a12, t, List.map_append]
  have eta : ∀ l, etaDecay (A.inUnit lam) (c.inUnit lam) ME' m (l.map (Decl.inUnit lam)) =
      (etaDecay A c ME m l).map (Decl.inUnit lam) := by
    intro l
    simp only [etaDecay, w, w0, a8, b1, b2, b3, t, List.map_append, ← f]
  have rho0 : ∀ l, rho0Decay (A.inUnit lam) (c.inUnit lam) ME' m (l.map (Decl.inUnit lam)) =
      (rho0Decay A c ME m l).map (Decl.inUnit lam) := by
    intro l
    simp only [rho0Decay, w, a2, t, List.map_append]
  have ite : ∀ (b : Bool) (u v : List (Decl S)), (if b = true then u.map (Decl.inUnit lam) else v.map (Decl.inUnit lam)) =
      (if b = true then u else v).map (Decl.inUnit lam) := by
    intro b u v
    split_ifs <;> rfl
  have at' := @alreadyThere_inUnit S _ A lam hl
  cases x with
  | pi0 => exact pi0Decay_inUnit A c hl m l
  | pi => exact piDecay_inUnit A c hl m l
  | kaon => exact kaon l
  | kaonL => exact kaonL l
  | kaonS => exact kaonS l
  | eta => exact eta l
  | rho0 => exact rho0 l
  | rho => simp only [mesonDecay, rhoDecay, w, w0, a1, t, List.map_append]
  | omega => simp only [mesonDecay, omegaDecay, w, w0, a3, b4, t, List.map_append, ← f]
  | etaP => simp only [mesonDecay, etaPDecay, w, w0, a4, b5, b6, t, List.map_append, ← f, at', rho0, eta, ite]
  | phi => simp only [mesonDecay, phiDecay, w0, a5, a6, a7, t, List.map_append, at', rho0, kaon, kaonL, kaonS, ite]

theorem mesonInteractions_inUnit (primary : List Meson) :
    mesonInteractions (A.inUnit lam) (c.inUnit lam) ME' m primary = (mesonInteractions A c ME m primary).map (Decl.inUnit lam) := by
  unfold mesonInteractions
  suffices H : ∀ l : List (Decl S), primary.foldl (fun l x => mesonDecay (A.inUnit lam) (c.inUnit lam) ME' m x l)
      (l.map (Decl.inUnit lam)) = (primary.foldl (fun l x => mesonDecay A c ME m x l) l).map (Decl.inUnit lam) from H []
  induction primary with
  | nil => intro l; rfl
  | cons x xs ih =>
    intro l
    rw [List.foldl_cons, List.foldl_cons, mesonDecay_inUnit A c hl m hE x l, ih]

end Chains

theorem mesonElements_scale (lam MeV : ℝ) : ElementsScale lam (mesonElements MeV) (mesonElements (lam * MeV)) := by
  constructor
  · intro k hk
    fin_cases hk <;> simp [mesonElements] <;> ring
  · intro k hk
    fin_cases hk <;> simp [mesonElements]

theorem tmplAttr_inUnit (lam MeV : ℝ) (mN : ℚ) : tmplAttr (lam * MeV) mN = (tmplAttr MeV mN).inUnit lam := by
  simp only [tmplAttr, LibAttr.inUnit, LibAttr.mk.injEq, Attr.mk.injEq, true_and, and_true]
  constructor <;> funext x <;> ring

/-- **C136 (mesons).** The decays of any list of mesons, with the templates and the table of matrix elements of the library: in another
unit of energy the same declarations with the same couplings expressed in that unit. -/
theorem C136_mesons (MeV : ℝ) (mN : ℚ) (c : LibConst) {lam : ℝ} (hl : 0 < lam) (m : Chain Tmpl) (primary : List Meson) :
    mesonInteractions (tmplAttr (lam * MeV) mN) (c.inUnit lam) (mesonElements (lam * MeV)) m primary =
      (mesonInteractions (tmplAttr MeV mN) c (mesonElements MeV) m primary).map (Decl.inUnit lam) := by
  rw [tmplAttr_inUnit]
  exact mesonInteractions_inUnit _ c hl m (mesonElements_scale lam MeV) primary

/-- **C136 (neutrinos and leptons).** -/
theorem C136_leptons (A : LibAttr S) (c : LibConst) {lam : ℝ} (leptons neutrinos : List S) :
    neutrinoInteractions (A.inUnit lam) (c.inUnit lam) leptons neutrinos =
      (neutrinoInteractions A c leptons neutrinos).map (Decl.inUnit lam) ∧
    leptonInteractions (A.inUnit lam) (c.inUnit lam) leptons neutrinos =
      (leptonInteractions A c leptons neutrinos).map (Decl.inUnit lam) := by
  refine ⟨?_, leptonInteractions_inUnit A c lam leptons neutrinos⟩
  unfold neutrinoInteractions
  rw [List.map_append, List.map_map, List.map_flatMap]
  congr 1
  · refine List.map_congr_left fun x _ => ?_
    simp [neutrinoScattering, Decl.inUnit, Amp.inUnit, weakM_inUnit]
  · refine List.flatMap_congr fun l _ => ?_
    rw [List.map_map]
    refine List.map_congr_left fun n _ => ?_
    have gr : (c.inUnit lam).gR = c.gR := rfl
    simp [neutrinosToLeptons, Decl.inUnit, Amp.inUnit, weakM_inUnit, couplingL_inUnit, gr]

/-- **C136 (heavy neutrino, hadrons).** The decays of the heavy neutrino into mesons. -/
theorem C136_sterile_mesons (A : LibAttr S) (c : LibConst) {lam : ℝ} (hl : 0 < lam) (θ : ℝ) (N l x : S) :
    neutralScalar (A.inUnit lam) (c.inUnit lam) θ N l x = (neutralScalar A c θ N l x).map (Decl.inUnit lam) ∧
    chargedScalar (A.inUnit lam) (c.inUnit lam) θ N l x = (chargedScalar A c θ N l x).map (Decl.inUnit lam) ∧
    chargedVector (A.inUnit lam) (c.inUnit lam) θ N l x = (chargedVector A c θ N l x).map (Decl.inUnit lam) ∧
    neutralVector (A.inUnit lam) (c.inUnit lam) θ N l x = (neutralVector A c θ N l x).map (List.map (Decl.inUnit lam)) := by
  have h := meson_coeff hl c.GF θ (A.decayConstant x) (A.mass N)
  have g : (c.inUnit lam).GF * θ * (A.inUnit lam).decayConstant x = c.GF / lam ^ 2 * θ * (lam * A.decayConstant x) := rfl
  have k : (c.inUnit lam).CKM 1 1 = c.CKM 1 1 := rfl
  have M : (A.inUnit lam).mass N ^ 4 = (lam * A.mass N) ^ 4 := rfl
  refine ⟨?_, ?_, ?_, ?_⟩
  · simp only [neutralScalar, List.map_cons, List.map_nil, Decl.inUnit, Amp.inUnit, ratio_inUnit A hl, g, M]
    rw [h, mul_assoc]
  · simp only [chargedScalar, List.map_cons, List.map_nil, Decl.inUnit, Amp.inUnit, ratio_inUnit A hl, g, k, M]
    generalize |(1 - (A.mass l / A.mass N) ^ 2) ^ 2 - (A.mass x / A.mass N) ^ 2 * (1 + (A.mass l / A.mass N) ^ 2)| = z
    have e : 2 * (c.GF / lam ^ 2 * θ * (lam * A.decayConstant x) * c.CKM 1 1) ^ 2 * (lam * A.mass N) ^ 4 * z =
        lam ^ 2 * (2 * (c.GF * θ * A.decayConstant x * c.CKM 1 1) ^ 2 * A.mass N ^ 4 * z) := by
      linear_combination (2 * c.CKM 1 1 ^ 2 * z) * h
    rw [e]
  · simp only [chargedVector, List.map_cons, List.map_nil, Decl.inUnit, Amp.inUnit, ratio_inUnit A hl, g, k, M]
    generalize (1 - (A.mass l / A.mass N) ^ 2) ^ 2 + (A.mass x / A.mass N) ^ 2 * (1 + (A.mass l / A.mass N) ^ 2)
        - 2 * (A.mass x / A.mass N) ^ 4 = z
    have e : 2 * (c.GF / lam ^ 2 * θ * (lam * A.decayConstant x) * c.CKM 1 1) ^ 2 * (lam * A.mass N) ^ 4 * z =
        lam ^ 2 * (2 * (c.GF * θ * A.decayConstant x * c.CKM 1 1) ^ 2 * A.mass N ^ 4 * z) := by
      linear_combination (2 * c.CKM 1 1 ^ 2 * z) * h
    rw [e]
  · have hk : kappa (A.inUnit lam) (c.inUnit lam) x = kappa A c x := rfl
    simp only [neutralVector, hk, Option.map_map]
    congr 1
    funext κ
    simp only [Function.comp, List.map_cons, List.map_nil, Decl.inUnit, Amp.inUnit, ratio_inUnit A hl, g, M]
    generalize A.mass x / A.mass N = z
    have e : (c.GF / lam ^ 2 * θ * (lam * A.decayConstant x) * κ) ^ 2 * (lam * A.mass N) ^ 4 * (1 + 2 * z ^ 2) * (1 - z ^ 2) =
        lam ^ 2 * ((c.GF * θ * A.decayConstant x * κ) ^ 2 * A.mass N ^ 4 * (1 + 2 * z ^ 2) * (1 - z ^ 2)) := by
      linear_combination (κ ^ 2 * (1 + 2 * z ^ 2) * (1 - z ^ 2)) * h
    rw [e]

/-- **C136 (heavy neutrino, leptons).** -/
theorem C136_sterile_leptons (A : LibAttr S) (c : LibConst) {lam : ℝ} (thetas : String → ℝ) (N : S) (neutrinos leptons : List S) :
    sterileLeptons (A.inUnit lam) (c.inUnit lam) thetas N neutrinos leptons =
      (sterileLeptons A c thetas N neutrinos leptons).map (Decl.inUnit lam) := by
  have fl : ∀ s, (A.inUnit lam).flavour s = A.flavour s := fun _ => rfl
  have gr : (c.inUnit lam).gR = c.gR := rfl
  have h1 : ∀ θ a b, sterileScattering (c.inUnit lam) θ N a b = (sterileScattering c θ N a b).map (Decl.inUnit lam) := by
    intro θ a b
    simp [sterileScattering, Decl.inUnit, Amp.inUnit, sterileM_inUnit]
  have h2 : ∀ θ g a l, sterileNC (c.inUnit lam) θ g N a l = (sterileNC c θ g N a l).map (Decl.inUnit lam) := by
    intro θ g a l
    simp [sterileNC, Decl.inUnit, Amp.inUnit, sterileM_inUnit, gr]
  have h3 : ∀ θ a l l', sterileCC (c.inUnit lam) θ N a l l' = (sterileCC c θ N a l l').map (Decl.inUnit lam) := by
    intro θ a l l'
    simp [sterileCC, Decl.inUnit, Amp.inUnit, sterileM_inUnit]
  unfold sterileLeptons
  simp only [List.map_append, List.map_flatMap, fl, h1, h2, h3, couplingL_inUnit]
  congr 1
  · refine List.flatMap_congr fun a _ => List.flatMap_congr fun b _ => ?_
    split_ifs <;> rfl
  · refine List.flatMap_congr fun l _ => List.flatMap_congr fun n _ => ?_
    congr 1
    · split_ifs <;> rfl
    · split_ifs
      · rw [List.map_flatMap]
        refine List.flatMap_congr fun l' _ => ?_
        split_ifs <;> rfl
      · rfl

/-- **C136 (quarks and baryons).** Every channel with quarks, and the conversion of the neutron. -/
theorem C136_quarks (A : LibAttr S) (c : LibConst) {lam : ℝ} (θ : ℝ) (N a l u d e : S) :
    sterileQuarkNC (A.inUnit lam) (c.inUnit lam) θ N a u = (sterileQuarkNC A c θ N a u).map (Decl.inUnit lam) ∧
    sterileQuarkCC (A.inUnit lam) (c.inUnit lam) θ N l u d = (sterileQuarkCC A c θ N l u d).inUnit lam ∧
    baryonsInteraction (c.inUnit lam) u d a e = (baryonsInteraction c u d a e).inUnit lam := by
  have gr : (c.inUnit lam).gR = c.gR := rfl
  have k : (c.inUnit lam).CKM = c.CKM := rfl
  have q : (A.inUnit lam).Q u = A.Q u := rfl
  have fa : (A.inUnit lam).family = A.family := rfl
  refine ⟨?_, ?_, ?_⟩
  · simp only [sterileQuarkNC, gr, q, Option.map_map]
    congr 1
    funext g
    simp [Decl.inUnit, Amp.inUnit, sterileM_inUnit]
  · simp [sterileQuarkCC, Decl.inUnit, Amp.inUnit, sterileM_inUnit, k, fa]
  · simp [baryonsInteraction, Decl.inUnit, Amp.inUnit, weakM_inUnit, k]

theorem mapM_option_map {α β : Type*} (f : β → β) (g g' : α → Option β) (hg : ∀ x, g' x = (g x).map f) (l : List α) :
    l.mapM g' = (l.mapM g).map (List.map f) := by
  induction l with
  | nil => rfl
  | cons x xs ih =>
    rw [List.mapM_cons, List.mapM_cons, hg, ih]
    cases g x with
    | none => rfl
    | some y => cases xs.mapM g <;> rfl

theorem foldlM_option_map {α β : Type*} (f : β → β) (g g' : α → Option (List β)) (hg : ∀ x, g' x = (g x).map (List.map f)) (l : List α)
    (acc : List β) : l.foldlM (fun acc y => (g' y).map (acc ++ ·)) (acc.map f) =
      (l.foldlM (fun acc y => (g y).map (acc ++ ·)) acc).map (List.map f) := by
  induction l generalizing acc with
  | nil => rfl
  | cons x xs ih =>
    rw [List.foldlM_cons, List.foldlM_cons, hg]
    cases g x with
    | none => rfl
    | some y =>
      have := ih (acc ++ y)
      rw [List.map_append] at this
      exact this

/-- **C136 (heavy neutrino, all loops).** The lists of channels with quarks, neutral mesons and charged mesons; a failure (unknown
charge or meson) occurs in every unit or in none. -/
theorem C136_sterile_loops (A : LibAttr S) (c : LibConst) {lam : ℝ} (hl : 0 < lam) (thetas : String → ℝ) (N last : S)
    (neutrinos leptons quarks mesons : List S) :
    sterileQuarks (A.inUnit lam) (c.inUnit lam) thetas N neutrinos leptons quarks =
      (sterileQuarks A c thetas N neutrinos leptons quarks).map (List.map (Decl.inUnit lam)) ∧
    sterileNeutralMesons (A.inUnit lam) (c.inUnit lam) thetas N neutrinos mesons =
      (sterileNeutralMesons A c thetas N neutrinos mesons).map (List.map (Decl.inUnit lam)) ∧
    sterileChargedMesons (A.inUnit lam) (c.inUnit lam) thetas N last leptons mesons =
      (sterileChargedMesons A c thetas N last leptons mesons).map (Decl.inUnit lam) := by
  classical
  have fl : ∀ s, (A.inUnit lam).flavour s = A.flavour s := fun _ => rfl
  have q : ∀ s, (A.inUnit lam).Q s = A.Q s := fun _ => rfl
  have ty : ∀ s, (A.inUnit lam).mesonType s = A.mesonType s := fun _ => rfl
  refine ⟨?_, ?_, ?_⟩
  · unfold sterileQuarks
    simp only [fl, q]
    rw [mapM_option_map (Decl.inUnit lam) (fun x : S × S => sterileQuarkNC A c (thetas (A.flavour x.2)) N x.2 x.1) _
      fun x => (C136_quarks A c (thetas (A.flavour x.2)) N x.2 N x.1 N N).1]
    generalize List.mapM (fun x : S × S => sterileQuarkNC A c (thetas (A.flavour x.2)) N x.2 x.1) _ = o
    cases o with
    | none => rfl
    | some nc =>
      show some _ = some _
      rw [List.map_append, List.map_flatMap]
      congr 2
      refine List.flatMap_congr fun x _ => ?_
      rw [List.map_map]
      exact List.map_congr_left fun l _ => (C136_quarks A c (thetas (A.flavour l)) N N l x.1 x.2 N).2.1
  · unfold sterileNeutralMesons
    simp only [fl, q, ty]
    refine foldlM_option_map (Decl.inUnit lam) (fun y : S × S =>
      if A.mesonType y.2 = "scalar" then some (neutralScalar A c (thetas (A.flavour y.1)) N y.1 y.2)
      else if A.mesonType y.2 = "vector" then neutralVector A c (thetas (A.flavour y.1)) N y.1 y.2
      else some []) _ (fun y => ?_) _ []
    have h := C136_sterile_mesons A c hl (thetas (A.flavour y.1)) N y.1 y.2
    rw [h.1, h.2.2.2]
    split_ifs <;> rfl
  · unfold sterileChargedMesons
    simp only [fl, q, ty, List.map_flatMap]
    refine List.flatMap_congr fun l _ => List.flatMap_congr fun x _ => ?_
    rw [(C136_sterile_mesons A c hl (thetas (A.flavour l)) N l x).2.1, (C136_sterile_mesons A c hl (thetas (A.flavour last)) N l x).2.2.1]
    split_ifs <;> rfl

/-! ## Cases -/

/-- The decay of the charged rho meson in units of GeV (`MeV = 1/1000`): its coupling is `18.639 GeV²`. -/
example : mesonElements (1 / 1000 * 1) "RhoPlusPiPlusPi0" = 18.639 := by
  rw [(mesonElements_scale (1 / 1000) 1).1 _ (by simp)]
  simp [mesonElements]
  norm_num

/-- The chains of the phi and eta prime mesons in units of GeV. -/
example (c : LibConst) (m : Chain Tmpl) : mesonInteractions (tmplAttr (1 / 1000 * 1) 1) (c.inUnit (1 / 1000))
    (mesonElements (1 / 1000 * 1)) m [.phi, .etaP] =
      (mesonInteractions (tmplAttr 1 1) c (mesonElements 1) m [.phi, .etaP]).map (Decl.inUnit (1 / 1000)) :=
  C136_mesons 1 1 c (by norm_num) m _

end PyBBN
