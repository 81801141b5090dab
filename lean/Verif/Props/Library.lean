import Verif.Props.Batches
import Verif.Props.Batch.Kinds
import Verif.Lemmas.Index

/-!
# C37, C50, C51: all distributions of the library
-/

namespace Efax

open ClassTable Calc Spec

variable [MachEps] {solve : Solver} {search : Cls → List Val → Except Err (List Val)}

/-- **C51.** Every kind of distributions of the library, simple or joint and nested to any depth: the
primitive methods act entry by entry as those of the family. -/
theorem C51_library (hs : solve.For search) {K : Kind Cls} (hK : LibraryKind solve K) :
    K.Ok (library search) := by
  induction hK with
  | simple s => exact simple_ok hs s
  | joint h0 hn _ ih =>
    obtain ⟨h1, h2⟩ := Parts.Ok.ofList ih hn
    refine Spec.Kind.Ok.joint rfl rfl rfl rfl ⟨1, rfl⟩ h1 ?_ (h2 ▸ hn)
    rw [h2]
    simpa using h0

theorem simple_indexed (hs : solve.For search) (s : Simple) : (s.kind solve).Indexed := by
  have h := simple_ok hs s
  cases s with
  | bernoulli => exact .simple h (fun _ _ _ => ⟨_, rfl⟩) (fun _ _ _ => ⟨_, rfl⟩) layS_index layS_index
  | beta => exact .simple h (fun _ _ _ => ⟨_, rfl⟩) (fun _ _ _ => ⟨_, rfl⟩) (layV_index _) (layV_index _)
  | chi => exact .simple h (fun _ _ _ => ⟨_, rfl⟩) (fun _ _ _ => ⟨_, rfl⟩) layS_index layS_index
  | chiSquare => exact .simple h (fun _ _ _ => ⟨_, rfl⟩) (fun _ _ _ => ⟨_, rfl⟩) layS_index layS_index
  | cmvCircular d => exact .simple h (fun _ _ _ => ⟨_, rfl⟩) (fun _ _ _ => ⟨_, rfl⟩) (layCM_index _) (layCM_index _)
  | cmvUnit d => exact .simple h (fun _ _ _ => ⟨_, rfl⟩) (fun _ _ _ => ⟨_, rfl⟩) (layCV_index _) (layCV_index _)
  | complexNormal => exact .simple h (fun _ _ _ => ⟨_, rfl⟩) (fun _ _ _ => ⟨_, rfl⟩) layCSC_index layCSC_index
  | complexUnit => exact .simple h (fun _ _ _ => ⟨_, rfl⟩) (fun _ _ _ => ⟨_, rfl⟩) layC_index layC_index
  | dirichlet d => exact .simple h (fun _ _ _ => ⟨_, rfl⟩) (fun _ _ _ => ⟨_, rfl⟩) (layV_index _) (layV_index _)
  | exponential => exact .simple h (fun _ _ _ => ⟨_, rfl⟩) (fun _ _ _ => ⟨_, rfl⟩) layS_index layS_index
  | gamma => exact .simple h (fun _ _ _ => ⟨_, rfl⟩) (fun _ _ _ => ⟨_, rfl⟩) laySS_index laySS_index
  | genDirichlet d => exact .simple h (fun _ _ _ => ⟨_, rfl⟩) (fun _ _ _ => ⟨_, rfl⟩) (layVV_index _) (layVV_index _)
  | geometric => exact .simple h (fun _ _ _ => ⟨_, rfl⟩) (fun _ _ _ => ⟨_, rfl⟩) layS_index layS_index
  | logarithmic => exact .simple h (fun _ _ _ => ⟨_, rfl⟩) (fun _ _ _ => ⟨_, rfl⟩) layS_index layS_index
  | multinomial d => exact .simple h (fun _ _ _ => ⟨_, rfl⟩) (fun _ _ _ => ⟨_, rfl⟩) (layV_index _) (layV_index _)
  | mvNormal d => exact .simple h (fun _ _ _ => ⟨_, rfl⟩) (fun _ _ _ => ⟨_, rfl⟩) (layVM_index _) (layVM_index _)
  | mvDiagonal d => exact .simple h (fun _ _ _ => ⟨_, rfl⟩) (fun _ _ _ => ⟨_, rfl⟩) (layVV_index _) (layVV_index _)
  | mvFixed d => exact .simple h (fun _ _ _ => ⟨_, rfl⟩) (fun _ _ _ => ⟨_, rfl⟩) (layVFixed_index _) (layVFixed_index _)
  | mvIsotropic d => exact .simple h (fun _ _ _ => ⟨_, rfl⟩) (fun _ _ _ => ⟨_, rfl⟩) (layVS_index _) (layVS_index _)
  | mvUnit d => exact .simple h (fun _ _ _ => ⟨_, rfl⟩) (fun _ _ _ => ⟨_, rfl⟩) (layV_index _) (layV_index _)
  | negativeBinomial => exact .simple h (fun _ _ _ => ⟨_, rfl⟩) (fun _ _ _ => ⟨_, rfl⟩) laySFixedInt_index laySFixedInt_index
  | normal => exact .simple h (fun _ _ _ => ⟨_, rfl⟩) (fun _ _ _ => ⟨_, rfl⟩) laySS_index laySS_index
  | unitNormal => exact .simple h (fun _ _ _ => ⟨_, rfl⟩) (fun _ _ _ => ⟨_, rfl⟩) layS_index layS_index
  | poisson => exact .simple h (fun _ _ _ => ⟨_, rfl⟩) (fun _ _ _ => ⟨_, rfl⟩) layS_index layS_index
  | rayleigh => exact .simple h (fun _ _ _ => ⟨_, rfl⟩) (fun _ _ _ => ⟨_, rfl⟩) layS_index layS_index
  | vonMisesFisher d => exact .simple h (fun _ _ _ => ⟨_, rfl⟩) (fun _ _ _ => ⟨_, rfl⟩) (layE_index _) (layE_index _)
  | weibull => exact .simple h (fun _ _ _ => ⟨_, rfl⟩) (fun _ _ _ => ⟨_, rfl⟩) layFixedS_index layFixedS_index

theorem library_indexed (hs : solve.For search) {K : Kind Cls} (hK : LibraryKind solve K) :
    K.Indexed := by
  have h := C51_library hs hK
  induction hK with
  | simple s => exact simple_indexed hs s
  | joint h0 hn hl ih =>
    exact .joint ⟨1, rfl⟩ ⟨1, rfl⟩ (.ofList fun nk hm => ih nk hm (C51_library hs (hl nk hm))) h.wfN h.wfE

/-- **C51.** Indexing a batch of natural parametrizations gives the batch of the indexed parameters. -/
theorem C51_getitem_natural (hs : solve.For search) {K : Kind Cls} (hK : LibraryKind solve K)
    {t i : List ℕ} (hi : inB t i = true) (s : List ℕ) (p : List ℕ → K.P) (q : List ℕ → K.N) :
    (K.nat (s ++ t) p q).getitem i.reverse =
      .ok (K.nat s (fun j => p (j ++ i)) fun j => q (j ++ i)) := by
  have h := library_indexed hs hK
  obtain ⟨l, hl⟩ := h.infosN (s ++ t) p q []
  exact (h.nat s t i p q hi).getitem (h.wfN _ _ _) (h.wfN _ _ _) hl

/-- **C51.** Indexing a batch of expectation parametrizations gives the batch of the indexed
parameters. -/
theorem C51_getitem_expectation (hs : solve.For search) {K : Kind Cls} (hK : LibraryKind solve K)
    {t i : List ℕ} (hi : inB t i = true) (s : List ℕ) (p : List ℕ → K.P) (χ : List ℕ → K.E) :
    (K.exp (s ++ t) p χ).getitem i.reverse =
      .ok (K.exp s (fun j => p (j ++ i)) fun j => χ (j ++ i)) := by
  have h := library_indexed hs hK
  obtain ⟨l, hl⟩ := h.infosE (s ++ t) p χ []
  exact (h.exp s t i p χ hi).getitem (h.wfE _ _ _) (h.wfE _ _ _) hl

end Efax
