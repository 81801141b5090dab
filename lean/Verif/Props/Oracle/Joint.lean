import Verif.Props.Oracle.Scalar
import Verif.Props.Oracle.Complex
import Verif.Props.Oracle.Simplex
import Verif.Props.Oracle.VonMises
import Verif.Props.Scipy.Joint

/-!
# The oracles of the tests: all distributions
-/

namespace Efax

open Spec Calc Tests MeasureTheory

variable [MachEps] {solve : Solver} {search : Cls → List Val → Except Err (List Val)}

theorem agrees_simple (hs : solve.For search) {s : SimpleInfo} {n : ℕ} (h : HasDimension s n) :
    Agrees (library search) (.simple s n) ((familyOf s n).setting solve) := by
  cases s <;> simp only [HasDimension] at h
  case bernoulli => exact agrees_bernoulli hs n
  case geometric => exact agrees_geometric hs n
  case poisson => exact agrees_poisson hs n
  case negativeBinomial => exact agrees_negativeBinomial hs n
  case logarithmic => exact agrees_logarithmic n
  case normal => exact agrees_normal hs n
  case unitNormal => exact agrees_unitNormal hs n
  case mvFixed => exact agrees_mvFixed hs (by omega)
  case mvUnit => exact agrees_mvUnit hs (by omega)
  case isotropic => exact agrees_isotropic hs (by omega)
  case mvDiagonal => exact agrees_mvDiagonal hs (by omega)
  case mvNormal => exact agrees_mvNormal hs (by omega)
  case complexUnit => exact agrees_complexUnit hs n
  case complexNormal => exact agrees_complexNormal hs n
  case cmvUnit => exact agrees_cmvUnit hs
  case cmvCircular => exact agrees_cmvCircular hs
  case exponential => exact agrees_exponential hs n
  case rayleigh => exact agrees_rayleigh hs n
  case beta => exact agrees_beta n
  case gamma => exact agrees_gamma n
  case dirichlet =>
    obtain ⟨d, rfl⟩ : ∃ d, n = d + 1 := ⟨n - 1, by omega⟩
    exact agrees_dirichlet d
  case genDirichlet => exact agrees_genDirichlet (by omega)
  case vonMises => exact agrees_vonMises n
  case vonMisesFisher => exact agrees_vonMisesFisher h
  case chiSquare => exact agrees_chiSquare n
  case chi => exact agrees_chi n
  case weibull => exact agrees_weibull hs n

/-! ### Joint distributions -/

omit [MachEps] in
theorem bind_of_ok {α β : Type} {m : Except Err α} {a : α} {f : α → Except Err β} (h : m = .ok a) :
    (do f (← m)) = f a := by
  rw [h]
  rfl

theorem obs_mono : ∀ (l : List (String × Kind Cls)) {rs : List ℕ} {x : List ℕ → (Parts.ofList l).X} {f g : Forest Val},
    (∀ kv ∈ f.toList, kv ∈ g.toList) → (Parts.ofList l).obs rs x f → (Parts.ofList l).obs rs x g
  | [], _, _, _, _, _, _ => trivial
  | _ :: l, _, _, _, _, h, ⟨⟨t, ht, ho⟩, hr⟩ => ⟨⟨t, h _ ht, ho⟩, obs_mono l h hr⟩

/-- The translation of the parts of a joint distribution, from a dictionary `full` that has them. -/
def AgreesAll (L : Library Cls) (solve : Solver) (infos : TestInfos) : Prop :=
  let R : Parts Cls := Parts.ofList (partsOf (settingsOf solve infos))
  let T : Settings R := Settings.ofList (settingsOf solve infos)
  ∀ rs p q, (∀ i, inB rs i = true → T.ok (p i) ∧ q i ∈ T.dom (p i)) →
    ∀ full : Dict String (Dist Cls), (∀ kv ∈ (R.nat rs p q).toList, full.get kv.1 = .ok kv.2) →
    ∃ os, TestInfos.natToScipy L infos full = .ok os ∧ os.map Prod.fst = infos.names ∧
      (∀ f : Forest Val, f.keys.Nodup → Drawns rs infos f.toList → ∃ f' x, ∃ pd : String → List ℕ → ℝ,
        TestInfos.observation infos f = .ok f' ∧ f'.keys = infos.names ∧ R.obs rs x f' ∧
        (∀ k o t, (k, o) ∈ os → (k, t) ∈ f.toList → o.pdf t = .ok (scalars rs (pd k))) ∧
        ∀ i, inB rs i = true → (os.map fun kv => pd kv.1 i).prod = (R.F (p i)).pdf (q i) (x i)) ∧
      ((∀ i, inB rs i = true → R.toNat (p i) ((R.F (p i)).toExp (q i)) = q i) → Entropics infos →
        ∃ e : String → List ℕ → ℝ, (∀ kv ∈ os, kv.2.entropy = .ok (scalars rs (e kv.1))) ∧
        ∀ i, inB rs i = true → (os.map fun kv => e kv.1 i).sum = (R.F (p i)).entropyN (R.ecm (p i)) (q i))

theorem agreesAll_nil (L : Library Cls) : AgreesAll L solve .nil := by
  refine fun rs p q _ full _ => ⟨[], rfl, rfl, fun f _ _ => ⟨.nil, fun _ => (), fun _ _ => 0, rfl, rfl, trivial,
    fun _ _ _ h => by simp at h, fun i _ => ?_⟩, fun _ _ => ⟨fun _ _ => 0, fun _ h => by simp at h, fun i _ => ?_⟩⟩
  · show 1 = ExpFam.pdf unitFam _ _
    simp [ExpFam.pdf, ExpFam.logPdf, unitFam]
  · show 0 = ExpFam.entropyN unitFam _ _
    simp only [ExpFam.entropyN, ExpFam.crossEntropy, unitFam]
    show (0 : ℝ) = -0 + 0 - 0
    simp

theorem agreesAll_cons {L : Library Cls} {name : String} {info : TestInfo} {rest : TestInfos}
    (hn : name ∉ rest.names) (h1 : Agrees L info (settingOf solve info).2) (h2 : AgreesAll L solve rest) :
    AgreesAll L solve (.cons name info rest) := by
  intro rs p q hq full hf
  obtain ⟨o, ho, hpdf, hent⟩ := h1 rs (fun i => (p i).1) (fun i => (q i).1) fun i hi =>
    ⟨(hq i hi).1.1, (hq i hi).2.1⟩
  obtain ⟨os, hos, hnames, hpdfs, hents⟩ := h2 rs (fun i => (p i).2) (fun i => (q i).2)
    (fun i hi => ⟨(hq i hi).1.2, (hq i hi).2.2⟩) full fun kv hkv => hf kv (List.mem_cons_of_mem _ hkv)
  have hno : ∀ kv ∈ os, kv.1 ≠ name := fun kv hkv he => hn (by
    rw [← hnames, ← he]
    exact List.mem_map_of_mem hkv)
  refine ⟨(name, o) :: os, ?_, by rw [List.map_cons, hnames]; rfl, fun f hd hdr => ?_, fun hx he => ?_⟩
  · rw [TestInfos.natToScipy, hf _ (List.mem_cons_self ..)]
    show (do
      let o ← TestInfo.natToScipy L info _
      let os ← TestInfos.natToScipy L rest full
      .ok ((name, o) :: os)) = _
    rw [show TestInfo.natToScipy L info _ = .ok o from ho, hos]
    rfl
  · obtain ⟨⟨t, ht, hdt⟩, hdr⟩ := hdr
    obtain ⟨t', x, h3, h4, h5⟩ := hpdf t hdt
    obtain ⟨f', xs, pd, h6, h7, h8, h9, h10⟩ := hpdfs f hd hdr
    refine ⟨.cons name t' f', fun i => (x i, xs i),
      fun k i => if k = name then ((settingOf solve info).1.F (p i).1).pdf (q i).1 (x i) else pd k i,
      ?_, ?_, ⟨⟨t', List.mem_cons_self .., h4⟩, obs_mono _ (fun kv hkv => List.mem_cons_of_mem _ hkv) h8⟩,
      fun k o' u hk hu => ?_, fun i hi => ?_⟩
    · rw [TestInfos.observation, Forest.get?_of_mem hd ht]
      show (do
        let o ← info.observation t
        let os ← rest.observation f
        Except.ok (Forest.cons name o os)) = _
      rw [h3, h6]
      rfl
    · rw [Forest.keys, h7]
      rfl
    · rcases List.mem_cons.1 hk with hk | hk
      · obtain ⟨rfl, rfl⟩ := Prod.mk.inj hk
        rw [Forest.mem_unique hd hu ht, h5]
        simp only [if_true]
      · simp only [if_neg (hno _ hk)]
        exact h9 k o' u hk hu
    · rw [List.map_cons, List.prod_cons]
      beta_reduce
      rw [if_pos rfl, List.map_congr_left fun kv hkv => if_neg (hno kv hkv),
        h10 i hi]
      exact (prodFam_pdf ((settingOf solve info).1.F (p i).1)
        ((Parts.ofList (partsOf (settingsOf solve rest))).F (p i).2) (q i) (x i, xs i)).symm
  · obtain ⟨e, h3, h4⟩ := hents (fun i hi => congrArg Prod.snd (hx i hi)) he.2
    refine ⟨fun k i => if k = name then ((settingOf solve info).1.F (p i).1).entropyN
      ((settingOf solve info).1.ecm (p i).1) (q i).1 else e k i, fun kv hkv => ?_, fun i hi => ?_⟩
    · rcases List.mem_cons.1 hkv with rfl | hkv
      · simp only [if_true]
        exact hent (fun i hi => congrArg Prod.fst (hx i hi)) he.1
      · simp only [if_neg (hno _ hkv)]
        exact h3 kv hkv
    · rw [List.map_cons, List.sum_cons]
      beta_reduce
      rw [if_pos rfl, List.map_congr_left fun kv hkv => if_neg (hno kv hkv),
        h4 i hi]
      exact (prodFam_crossEntropy ((settingOf solve info).1.F (p i).1)
        ((Parts.ofList (partsOf (settingsOf solve rest))).F (p i).2) ((settingOf solve info).1.ecm (p i).1)
        ((Parts.ofList (partsOf (settingsOf solve rest))).ecm (p i).2)
        (((settingOf solve info).1.F (p i).1).toExp (q i).1,
          ((Parts.ofList (partsOf (settingsOf solve rest))).F (p i).2).toExp (q i).2) (q i)).symm

theorem settingsOf_names : ∀ infos : TestInfos, (settingsOf solve infos).map Prod.fst = infos.names
  | .nil => rfl
  | .cons name _ rest => by
    rw [settingsOf, List.map_cons, settingsOf_names rest]
    rfl

theorem partNames : ∀ l : List (String × Kind Cls), (Parts.ofList l).names = l.map Prod.fst
  | [] => rfl
  | nk :: l => by
    rw [Parts.ofList, List.map_cons, ← partNames l]
    rfl

theorem natNames : ∀ (l : List (String × Kind Cls)) {rs : List ℕ} {p q},
    ((Parts.ofList l).nat rs p q).toList.map Prod.fst = l.map Prod.fst
  | [], _, _, _ => rfl
  | nk :: l, _, _, _ => congrArg (List.cons nk.1) (natNames l)

theorem forest_keys : ∀ f : Forest Val, f.keys = f.toList.map Prod.fst
  | .nil => rfl
  | .cons _ _ r => congrArg (List.cons _) (forest_keys r)

/-- The oracle that `JointInfo` makes. -/
noncomputable def jointOracle (os : Dict String Oracle) : Oracle where
  rvs := fun size => size.elim
  pdf := fun
    | .node z => Scipy.jointPdf os z.toList
    | .leaf _ => .error .typeError
  entropy := Scipy.jointEntropy os

theorem agrees_joint {L : Library Cls} {infos : TestInfos} (h0 : infos.names ≠ []) (hn : infos.names.Nodup)
    (h : AgreesAll L solve infos) :
    Agrees L (.joint infos) (Setting.joint Cls.jointN Cls.jointE (.ofList (settingsOf solve infos))) := by
  have hnames : (partsOf (settingsOf solve infos)).map Prod.fst = infos.names := by
    rw [← settingsOf_names (solve := solve) infos, partsOf, List.map_map]
    rfl
  intro rs (p : _ → (Parts.ofList (partsOf (settingsOf solve infos))).P)
    (q : _ → (Parts.ofList (partsOf (settingsOf solve infos))).N) hq
  obtain ⟨os, hos, hk, hpdf, hent⟩ := h rs p q hq _ fun kv hkv => by
    have hd : Dict.keys ((Parts.ofList (partsOf (settingsOf solve infos))).nat rs p q).toList |>.Nodup := by
      rw [Dict.keys, natNames, hnames]
      exact hn
    rw [Dict.get, Dict.get?_of_mem hd hkv]
  have hne : os ≠ [] := fun he => h0 (by rw [← hk, he]; rfl)
  have ho : (TestInfo.joint infos).natToScipy L (Kind.nat (.joint .jointN .jointE (.ofList (partsOf
      (settingsOf solve infos)))) rs p q) = .ok (jointOracle os) := by
    rw [TestInfo.natToScipy]
    exact bind_of_ok hos
  refine ⟨_, ho, ?_, fun hx he => ?_⟩
  · rintro t ⟨f, rfl, hperm, hdr⟩
    have hkeys := forest_keys f
    have hd : f.keys.Nodup := by rw [hkeys]; exact hperm.nodup_iff.2 hn
    obtain ⟨f', x, pd, h1, h2, h3, h4, h5⟩ := hpdf f hd hdr
    refine ⟨.node f', x, by rw [TestInfo.observation, h1]; rfl, ⟨f', rfl, h2 ▸ hn, h3, fun k hk => ?_⟩, ?_⟩
    · rw [partNames, hnames, ← h2]
      exact hk
    · refine (C61_pdf (rs := rs) (p := pd) (by rw [hk]; exact hn) (by rw [← hkeys]; exact hd)
        (fun k => by rw [hk]; exact hperm.mem_iff.symm) hne fun k o t => h4 k o t).trans ?_
      exact congrArg _ (scalars_congr h5)
  · obtain ⟨e, h1, h2⟩ := hent hx he
    exact (C61_entropy hne h1).trans (congrArg _ (scalars_congr h2))

mutual
theorem agrees_all (hs : solve.For search) : (info : TestInfo) → Sound info →
    Agrees (library search) info (settingOf solve info).2
  | .simple _ _, h => agrees_simple hs h
  | .joint infos, h => agrees_joint (by
      obtain ⟨⟨name, info, rest, rfl⟩, -⟩ := h
      exact List.cons_ne_nil _ _) h.2.1 (agreesAll_all hs infos h.2.1 h.2.2)
theorem agreesAll_all (hs : solve.For search) : (infos : TestInfos) → infos.names.Nodup → Sounds infos →
    AgreesAll (library search) solve infos
  | .nil, _, _ => agreesAll_nil _
  | .cons _ info rest, hn, h => agreesAll_cons (List.nodup_cons.1 hn).1 (agrees_all hs info h.1)
      (agreesAll_all hs rest (List.nodup_cons.1 hn).2 h.2)
end

end Efax
