import Verif.Props.ModuleGraph
/-
Why C11 excludes some names: attributes (set with `setattr`) whose names contain "/" or begin with "_module__".
-/
namespace Nnx

/-- One Module with the given attributes. -/
def exNamed (attrs : List (Str × Attr Nat)) : World Nat := ⟨[⟨exCls (py! "Net"), attrs, 1, false, ⟨0, 0⟩⟩], 1, 0, []⟩

/-- **C11 needs names without "/".** `setattr(m, "a/b", Param(1))` succeeds, `m.partition()` returns, and merging what it returned raises. -/
theorem C11_slash_breaks_merge : ∃ (w : World Nat) (s : State (PyVal Nat)) (d : ModuleDef Nat),
    setAttr (exNamed []) 0 (py! "a/b") (.val (exParam 1)) = .ok w ∧ partitionModule 2 w.heap 0 [] = .ok ([s], d) ∧
    ∃ e, (mergeDef d [s] w).2 = .error e := by
  refine ⟨_, _, _, rfl, rfl, ?_⟩
  exact ⟨.keyError, by decide⟩

/-- **C11 needs names without "/", 2.** If there is a submodule `a`, the parameter "a/b" of `m` silently ends up in `m.a` instead. -/
theorem C11_slash_moves : ∃ (w : World Nat) (s : State (PyVal Nat)) (d : ModuleDef Nat) (w' : World Nat) (m : Loc),
    setAttr exWorld 0 (py! "a/x") (.val (exParam 9)) = .ok w ∧ partitionModule 3 w.heap 0 [] = .ok ([s], d) ∧ mergeDef d [s] w = (w', .ok m) ∧
    attrAt w.heap 0 (py! "a/x") = some (.val (exParam 9)) ∧ attrAt w'.heap m (py! "a/x") = none ∧
    ∃ a, attrAt w'.heap m (py! "a") = some (.ref a) ∧ attrAt w'.heap a (py! "x") = some (.val (exParam 9)) :=
  ⟨_, _, _, _, _, rfl, rfl, rfl, by decide, by decide, 3, by decide, by decide⟩

/-- **C11 needs unreserved names.** A static attribute called "_module__x" is not in what `merge` makes of `partition`. -/
theorem C11_reserved_dropped : ∃ (w : World Nat) (s : State (PyVal Nat)) (d : ModuleDef Nat) (w' : World Nat) (m : Loc),
    setAttr (exNamed []) 0 (py! "_module__x") (.val (.str (py! "v"))) = .ok w ∧ partitionModule 2 w.heap 0 [] = .ok ([s], d) ∧
    mergeDef d [s] w = (w', .ok m) ∧ attrAt w.heap 0 (py! "_module__x") = some (.val (.str (py! "v"))) ∧
    attrAt w'.heap m (py! "_module__x") = none :=
  ⟨_, _, _, _, _, rfl, rfl, rfl, by decide, by decide⟩

end Nnx
