import Verif.Proof.ReduceInt
import Mathlib.GroupTheory.Perm.Basic
import Mathlib.Data.Fintype.Perm
/-
The check of `ReduceInt` for the supercells of up to seven cells of the cubic lattices.
-/
namespace Phenum
open Spec

def scZ : M3 ℤ := !![1, 0, 0; 0, 1, 0; 0, 0, 1]
def fccZ : M3 ℤ := !![0, 1, 1; 1, 0, 1; 1, 1, 0]
def bccZ : M3 ℤ := !![-1, 1, 1; 1, -1, 1; 1, 1, -1]

theorem sc_zreduce : ∀ σ : Equiv.Perm (Fin 3), zCanReduce (fun i => scZ (σ i)) 2000 100000 7 = true := by decide +kernel
theorem fcc_zreduce : ∀ σ : Equiv.Perm (Fin 3), zCanReduce (fun i => fccZ (σ i)) 2000 100000 7 = true := by decide +kernel
theorem bcc_zreduce : ∀ σ : Equiv.Perm (Fin 3), zCanReduce (fun i => bccZ (σ i)) 2000 100000 7 = true := by decide +kernel

end Phenum
