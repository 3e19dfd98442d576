import Mathlib.Tactic.Tauto
import Mathlib.Tactic.ByContra
import Mathlib.Tactic.Use
import Batteries.Tactic.PermuteGoals
