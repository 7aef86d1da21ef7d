import Verif.PropsCli
import Verif.PropsDiffEx
/-!
Non-vacuity examples for the command-line part of C65.
-/
namespace Verif
namespace Plain

open Runner

/-- Configurations with five peers; queries on one configuration have two findings. -/
def someWorld : Runner.World (Config (Pt → Bool) (Fin 5 → Bool)) where
  name _ := "c".toList
  numPeers _ := 5
  policies _ := []
  only _ _ := none
  exec _ _ _ _ := some ⟨2, "two".toList, false⟩
  noPeers _ _ := []
  dump _ _ := []

/-- All queries say "text". -/
def plainWorld (excl : Bool) := queriesWorld netQ excl someWorld (fun _ _ _ => "text".toList)

theorem plain_bits (excl : Bool) : Bits (plainWorld excl) := by
  refine queriesWorld_bits ?_
  intro k o cmd cs i h
  injection h with h
  rw [← h]

-- `--sanity`: findings; `--connectivity`: findings, and the output is or is not the expected one
example : cliStatus (plainWorld false) (cfg peers [k1]) (cfg peers []) (Switch.sanity.args .notGiven "txt") = 1 := by decide +kernel
example : cliStatus (plainWorld false) (cfg peers [k1]) (cfg peers []) (Switch.connectivity.args (.file "two\n".toList) "txt") = 1 := by
  decide +kernel
example : cliStatus (plainWorld false) (cfg peers [k1]) (cfg peers []) (Switch.connectivity.args (.file "three\n".toList) "txt") = 3 := by
  decide +kernel
-- an unsupported format
example : cliStatus (plainWorld false) (cfg peers [k1]) (cfg peers []) (Switch.connectivity.args (.file "three\n".toList) "html2") = 4 := by
  decide +kernel
example : cliStatus (plainWorld false) (cfg peers [k1]) (cfg peers []) (Switch.connectivity.args .notGiven "txt") ≠ 7 :=
  fun h => absurd ((C65_cli_error (plain_bits _) .connectivity _ _ _ _).1 h) (by decide +kernel)

-- `--equiv`: the same connections written differently; and other connections
example : SameAllowed netQ true none (cfg peers [k1]) (cfg peers [k1']) :=
  (C65_equiv_status_partial (rest := someWorld) (text := fun _ _ _ => "text".toList) lawfulQ (by decide) (by decide) gK1 gK1' sBefore
    (solidP (by decide +kernel)) (one_order rfl) (topP _ _)).1.1 (by decide +kernel)
example : ¬ SameAllowed netQ false none (cfg peers [k1]) (cfg peers [k1, k2]) :=
  (C65_equiv_status_partial (rest := someWorld) (text := fun _ _ _ => "text".toList) lawfulQ (by decide) (by decide) gK1 gK12 sBefore
    (solidP (by decide +kernel)) (one_order rfl) (topP _ _)).2.1 (by decide +kernel)

-- `--interferes`: the base policy `k1` explicitly allows more than `cal`
example : ∃ p, Relevant netQ peers false p ∧ (cfg peers [k1]).explicit netQ p ∧ ¬ (cfg peers [cal]).explicit netQ p :=
  ((C65_interferes_status_partial (rest := someWorld) (text := fun _ _ _ => "text".toList) (c := cfg peers [cal]) lawfulQ (by decide) (by decide)
    gK1 gCal (cfg_explicit (by decide +kernel)) (cfg_explicit (by decide +kernel)) noHeps).2 (topP _ _)).1.1 (by decide +kernel)

-- `--permits` and `--forbids`
example : ∀ p, Relevant netQ peers false p → (cfg peers [k1, den]).explicit netQ p → (cfg peers [k1]).allows netQ p :=
  ((C65_permits_status_partial (rest := someWorld) (text := fun _ _ _ => "text".toList) lawfulQ (by decide) (by decide) gMix gK1 freeMix
    (Or.inl ⟨_, explicitMix⟩) (solidP (by decide +kernel)) noHeps).2 (by decide +kernel)).1.1 (by decide +kernel)
example : ¬ ∀ p, Relevant netQ peers false p → ¬ ((cfg peers [k1, den]).explicit netQ p ∧ (cfg peers [k1]).allows netQ p) := by
  intro h
  have := ((C65_forbids_status_partial (rest := someWorld) (text := fun _ _ _ => "text".toList) lawfulQ (by decide) (by decide) gMix gK1 freeMix
    (Or.inl ⟨_, explicitMix⟩) (solidP (by decide +kernel)) noHeps).2 (by decide +kernel)).1.2 h
  exact absurd this (by decide +kernel)

-- `--semantic_diff`
example : ¬ ∀ p k, inCategory netQ (cfg peers [k1]) (cfg peers01 [k2]) p k →
    ¬ Lost netQ false (cfg peers [k1]) (cfg peers01 [k2]) p ∧ ¬ Lost netQ false (cfg peers01 [k2]) (cfg peers [k1]) p := by
  intro h
  have := (C65_diff_status_partial (rest := someWorld) (text := fun _ _ _ => "text".toList) (c := cfg peers01 [k2]) lawfulQ (by decide) (by decide)
    gBefore gAfter sBefore sAfter kBA kAB (one_order rfl)).1.2 h
  exact absurd this (by decide +kernel)

end Plain
end Verif
