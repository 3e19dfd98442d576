# A Lean 4 model of cgarciae/nnx

`/repo` is read as text only. The model is written by hand, function by function, in `lean/Verif/Model/`. Each definition cites the
file and lines it models and states where it simplifies. `properties.jsonl` lists the properties, `MANIFEST.json` the theorems that
prove them, `seeded/LOG.jsonl` the wrong programs the theorems were tested against.

## Layout

| directory | contents |
|---|---|
| `Verif/Basic` | strings as character lists, insertion-ordered dicts, stable sort: the Python library functions the code calls |
| `Verif/Model` | the model of nnx, one file per source file, exceptions as values (`Except Err`) |
| `Verif/Spec` | small specifications used in theorem statements; they do not use the model's helpers where a claim is about these helpers |
| `Verif/Proofs` | helper lemmas, invariants, simulation arguments |
| `Verif/Props` | the theorems `Cnn_*`, one group per property, each beside an `example` (or a named `ex...` theorem) showing a concrete case that meets its hypotheses |

A theorem whose name ends in `_partial` proves less than the English property; the counterexample that shows why is beside it (see
"Disagreements"). Other theorems of a property with status `partial` are the counterexamples.

## Modelling decisions

* **Strings** are `List Char`; paths are joined and split on `'/'` as in the code. Order is codepoint order, as in Python.
* **dict** is an insertion-ordered association list; assignment replaces in place or appends, as CPython does.
* **Classes** are records (name, set of ancestors); `isinstance` is the ancestor test. Built-in nnx classes are constants; user
  classes are arbitrary.
* **Values** (`PyVal α`) are None, strings, tuples, opaque data of some class (e.g. an array), containers (class, value, metadata) and
  Pytrees. The payload type `α` is a parameter, with decidable equality: a Python value up to `==`. The theorems hold for every `α`.
* **Module objects** live in a heap (a list of objects); attributes hold either references or values, so sharing and cycles are
  arbitrary. Each object has class, attributes in insertion order, id, initializing flag and the trace it was made in.
  `World` = heap, id counter, current jax trace, stack of nnx traces. Objects are never freed.
* **Recursion over the object graph** is modelled with fuel. Theorems say that `heap length + 1` (or any larger number) is enough for
  every graph, i.e. the Python recursion terminates, and that more fuel does not change the result. C129 says how much fuel is
  needed, which is what Python's recursion limit bounds; the limit itself and the stack frames of the caller are not modelled.
* **Exceptions** are values `Except.error e`. Operations with partial effects return the world at the point of the error. The kinds of
  exceptions are those of Python (`valueError`, `keyError`, ...); messages are not modelled. `Err.unmodelled` marks a case the model
  does not cover: theorems about success exclude it, and no theorem says that such a case is an error of the code.
* **Functions given to transforms** are interaction trees (`Prog`): any adaptive program that reads, writes, deletes and links
  attributes, tests identity, creates modules, calls `get_state`, raises, and returns. For C90 to C92 they may also call `update_state` and `clone`, and other functions through transforms (`Routine`). Constructors (C80) are arbitrary functions on worlds.
* **jax** is a parameter. `jax.jit` runs the function on equal arguments in a new trace (C75: or uses a cached compilation with an equal
  key); `jax.grad` evaluates it and returns an entry for each entry it is given; `jax.checkpoint` runs it once on equal arguments;
  `jax.lax.scan` is the loop its documentation gives; `jax.vmap` is "slice i of the output is the function on slice i of the inputs";
  `fold_in`, `split`, `bernoulli` and the 32-bit hash are arbitrary functions (C29's last claim assumes they have no collisions).
* **Numerics** (`nn/*`) are in exact arithmetic over a (linearly ordered) field; floating point is not modelled. Arrays are a shape and
  a function on indices (`Tensor`). `lax.conv_general_dilated`, `jnp.pad`, `lax.dot_general`, `jnp.take`, mean over axes are described
  in `Model/Tensor.lean`, `Model/Linear.lean` from their documentation.
* **optax** (`tx.init`, `tx.update`, `apply_updates`) and layers called by `Sequence` are arbitrary functions.
* **Threads** (C34): each step of `UUIDManager.__call__` is an atomic read or write of one thread; a schedule is any interleaving, and
  an exception may strike at any step.

## Plan per property

| id | modelled | proof |
|---|---|---|
| C01-C04 | `State`, `_split_state`, `partition`, `filter`, `merge`, `to_predicate` | characterise lookup in each piece by induction on the entry list; sortedness gives extensionality |
| C05-C08 | the same, plus `\|`, `-`, flatten/unflatten | invariant "strictly sorted" over an inductive type of histories; extensionality of sorted lists |
| C09 | filter expressions as an inductive type | structural induction |
| C10 | `_iter_state_recursive` over the heap | invariant on visited ids of the depth-first search; enough fuel |
| C11-C13 | `_make_module_def_recursive`, `_build_module_recursive`, `_update_module` | preorder numbering; simulation between original and rebuilt heap; observational isomorphism |
| C14-C16 | `_update_module`, `_set_value_at_path`, `Module._setattr`, `Container.replace` | induction over the entries of the update |
| C17 | `_pop_recursive` | acyclic graphs: induction; cyclic: negation by witness |
| C18, C19 | `for_each`, `init` | invariant of the depth-first search |
| C20 | `sow` | induction over the history |
| C21 | `_setattr` guard | case analysis; induction over entries |
| C22 | `MutableLeaf` | from the lemmas of C14 |
| C23, C24 | `ModuleDef.__eq__/__hash__`, canonicity | induction on definitions; simulation |
| C25-C28 | `Pure.*`, `apply`, accessors | State lemmas; negations by witness |
| C29-C33 | `contextlib.py` | invariant on issued (key, data) over an inductive history; injective encoding of counters |
| C34 | `ids.py` at the level of lock/step interleavings | invariant over all schedules |
| C35, C47 | context managers as programs with exceptions | induction over program nesting |
| C36-C39, C74 | `containers.py`, `with_metadata` | case analysis; induction over operations |
| C40-C43, C72 | `pytreelib.py` | sort and extensionality lemmas; induction over histories |
| C44-C48, C73 | `spmd.py` | induction over rules and over values |
| C49-C51, C56, C75 | jit, grad, remat over programs | simulation using C11; equal heaps up to the correspondence give equal runs |
| C52-C55, C79 | `scan_apply`, `partition_name` | the scan's rounds simulate the loop; invariant: the merged module corresponds to the original; for bodies that create variables, the loop that first drops those the scan forgets (C53, C54) |
| C57-C65, C76-C78 | `nn/*` decision logic and exact arithmetic | algebra; index arithmetic for windows |
| C66-C70 | helpers, dataclass fields, repr | induction over lists, over the graph |
| C71 | histories of API calls (`Steps`) | the well-formedness assumed by the other theorems is an invariant of all histories |
| C80 | `scan_init` | partition of each slice, stacking per collection, merge of the stacked pieces (C11's lemmas on a heap with the new values) |
| C81 | `init_wrapper` of `scan` | C80 for the constructor that runs the method on the module; then the update of the module with the stacked State (`update_like_full`); failure with partition names by C16 |
| C82 | functions as interaction trees over `World` | simulation: an isomorphism of graphs is kept by every operation (`SameGraph.run`); for merge, C11 |
| C83 | `scan_init` and `scan_apply` together | slices of the stacked State are the layers' States (induction on value trees); the updated module is then observationally equal to the layer (C24), so each call agrees (C82); then C52 |
| C84 | `logical_to_mesh`, `logical_to_mesh_sharding` over trees of specs | induction on trees; layouts by C44, C45 |
| C85 | `scan_apply` with `in_axes`, `out_axes`, `tree_map_upto_left` | slicing after moving axes is slicing along the axes (induction on the prefix tree and the value tree, from four laws of `jnp.moveaxis`, shown to hold for matrices); then C52, C53 |
| C86 | constructors of `Linear`, `Conv`, `Embed`, `BatchNorm`, `LayerNorm` over the world of contexts | each constructor in terms of the state of the stream "params"; induction over the list of layers; the draws extend a history of C29, whose theorem gives distinct keys |
| C87 | the same, then `__call__` | C86 composed with C59, C64, C76, C77, C78 |
| C88 | `_compute_stats` with `axis_name`/`axis_index_groups` on a list of devices (`jnp.concatenate`, `lax.pmean`, `jnp.split`), then `BatchNorm`/`LayerNorm.__call__` on every device | the average of averages of samples of one size is the average of all; moving averages by induction over the steps; equality of replicas because a call changes the module only through the shape and the statistics |
| C89 | histories of calls on contexts in which a PureContext may also be handed to the iterations of a scan (`stepCtx`, `initCtx`) | invariant: what the live streams and the unused PureContexts can still draw is pairwise disjoint, and disjoint from what was drawn; induction over histories |
| C90 | functions that call functions through `jit`, `remat`, `grad`, `scan`, nested (`Routine.run`), and the same functions without transforms (`Routine.plain`) | simulation: induction over the function; a nested call runs on a merged copy that corresponds to the Module, its state is written back, and going on from corresponding Modules gives corresponding results |
| C91 | `nnx.scan` of functions that use transforms, and transforms of `nnx.scan`, as part of `Routine` | two functions with corresponding outcomes on corresponding Modules have scans with corresponding outcomes (`scanApply_sim`, through all loops of `scan_apply`); that the effects of inner calls are node writes is asked of exactly the calls the scan makes (`WheneverCalled`) |
| C92 | the runs of a `Routine` without any transforms (`Routine.Direct`): direct calls, gradients of direct calls, and Python loops over slices (`ScanLoop`), as a relation | induction over the function: at corresponding Modules, the run without transforms is followed by the function whose only transforms are scans (`Routine.Direct.sim`, with `ScanLoop.sim` from C52/C53), which in turn is followed by the function itself (C90) |
| C93 | `jax.tree_util.tree_flatten`, `tree_unflatten`, `flatten_up_to`, `tree_map` over containers, Pytrees, tuples, dicts and States (`Model/Tree.lean`), and what is at a path, as relations (`Spec/Tree.lean`) | induction over the size of the tree with one lemma per type of node (`IsInner`), and over lists of children |
| C94 | the training step of README.md:97-115 as a function in the language of C90 (`Spec/TrainStep.lean`): `grad`, then reading the state, `stateTreeMap` of the step function, `update_state` | the direct execution of the step is computed with C93 and the lemmas on `update_state` with values of the same kind; C90 then carries it over to `jit` and `remat` |
| C95 | the functional training step and loop of README.md:69-95 as pure functions of States (`Spec/Functional.lean`), with `applyDef` for `moduledef.apply` | running a function on a merged copy in any world has the outcome of running it on the Module (`sim_copy`), so the two losses are the same function; the new States are compared entry by entry; induction over the steps |
| C96 | the training loop of examples/03_train_state.py (`Spec/TrainLoop.lean`) on the heap of Pytrees, with `TrainState.apply` and `apply_gradients`; States in attributes are encoded | `state.apply` resolves to `moduledef.apply`, so the loss is that of C95; C68 gives the new TrainState; induction over the steps, then C95 |
| C97 | `copy.copy` and `copy.deepcopy` of a Module with their memo (`Model/Copy.lean`); trace objects are copied too, with identities given by a parameter | invariant of the memo while the copy is made: it is one-to-one, finished copies have the redirected attributes (`DeepInv`); then as C12. For shallow copies: a Module whose id was seen contributes nothing (`DiffersAt`) |
| C98 | `update_state` with a Module (`Model/Load.lean`), `merge` of stored States into the definition of another model | by C23: merging into definitions that compare equal gives worlds equal up to flags; C11/C13 for the definition of A; for `update_state`, the update lemma for States of the same kind, then C23 again |
| C99 | `remat_apply` and `JitTransform.__call__` with a Context (`Model/TransformsCtx.lean`) | a function with a Context is translated to a function that returns the streams as well (C90 applies to it); worlds of Contexts that differ only in traces give the same draws; C29 for fresh keys |
| C100 | `ModuleDef.__hash__` (`Model/ModuleHash.lean`) with hash functions that may fail | the definition and the traversal of C10 side by side: the static values in the definition are those of the visited Modules |
| C101 | the classes `Remat` and `Scan`: `__init__` through the metaclasses, `__call__`, `call` (`Model/Lifted.lean`) | the traversal of the new Module is that of the inner one under one more name; calls are functions in the language of C90, so C92 applies; construction by C80, then C83 in the world with the new Module |
| C102 | `Pure.apply`, `Pure.call`, `Module.partition` as a Pure (`Model/PureCalls.lean`); the loop of examples/04_pure.py (`Spec/PureLoop.lean`) | running a function on a merged copy has the outcome of running it on the Module (`apply_copy`), and the partition of the copy afterwards is that of the Module (C24); induction over the steps |
| C103 | `Pure` and `ModuleDef` as pytrees: `_pure_module_flatten`, `_moddef_flatten` and their inverses (`Model/PureTree.lean`), what it means that Pures fit (`Spec/PureTree.lean`) | induction over the list of States: the leaves of several States are the concatenation of those of each, and so are the columns that `tree_map` calls `f` with; for the module, the heap with the mapped values (`revalue`) has the ModuleDef and the mapped State, so `merge` builds a copy of it (`mergeDef_spec`), and equal graphs have equal partitions (C24) |
| C104 | the scan over layers of examples/06_scan_over_layers.py (`Model/HandScan.lean`), what it means that a State is the stack of others (`Spec/HandScan.lean`) | slices of stacked States are the States (`zipLeaves_index`); in each step the merged module is observationally equal to the layer, so it behaves the same (C82) and has the same partition (C24), and no module that was there changes; the update at the end as in C83. Construction by merging into the graph of the first layer with the stacked values (`merge_revalued`) |
| C105 | `get_state`, `partition`, `update_state` and attribute assignment of `Model/Module.lean`; what it means that a submodule can be reached only through one attribute (`Spec/Surgery.lean`) | a traversal of a closed set of modules depends only on these modules and on which of them were seen (`Dfs.frame`); so the traversal of the model splits into that of the submodule, under its name, and that of the rest (`Dfs.inside`, `Dfs.without`); updates through the model and of the submodule address the same attributes (C14) |
| C106 | all operations of `Model/Module.lean` and `Model/ModuleOps.lean` that change or rebuild a Module; the dictionary they change (`Spec/ModelDict.lean`) | refinement: the traversal depends on the references only (`Dfs.sameRefs`), so before and after an operation the same paths list the same attributes (`state_cells`); for each operation the attributes are compared one by one (C14, C22, C17, C13); induction on the program |
| C107 | `moduleFilter` (`Model/Queries.lean`), `updateState` | reduction to C04, C02 and C15; the transfer is one step of C106 with the States of the other Module |
| C108 | `sow`, `setAttr`, `popState`; calls as sequences of events (`Spec/Collect.lean`) | simulation of the run with sows by the run without them (`SownOver`: the worlds agree except at sown attributes, which hold the tuple so far), then `popState_effect` removes exactly those; induction over the calls |
| C109 | `Dropout.call`, `Linear.call`; expected values over finitely many outcomes (`Spec/Random.lean`) | the outcome of a call depends on what is drawn only through the mask; each element of the output is an indicator times a constant; linearity of the expected value |
| C110 | `moduleHash`, Python's dict with Modules as keys (`Model/ModuleKeys.lean`); API calls as in C12 (`Step`) | invariant of all programs: stored hashes are the present ones and keys are distinct, because no API call changes the id or the class of a Module |
| C111 | `SEEN_MODULES_REPR` as a variable shared by threads, `__nnx_repr__` and `get_repr` as steps between accesses to it (`Model/ReprThreads.lean`) | simulation of the recursive printer by the steps of one thread; invariant over all schedules without overlap; counterexample schedules, and an invariant of all schedules after the set was left behind |
| C112 | `make_rng` and `fork` of `partition` as accesses to `RngStream.count` by threads (`Model/RngThreads.lean`) | linearizability by an invariant of all schedules; then the invariant of C29; counterexample schedules |
| C113 | `update_state` stopped after any number of assignments (`Model/Interrupt.lean`) | every attribute is assigned its own value at most once and then equal values (C14); a prefix leaves the old or the new one; induction over attempts |
| C114 | `_pop_recursive` with a number of deletions after which it is stopped (`Model/Interrupt.lean`) | the visits depend on references only, which are never deleted; a prefix deletes a part of what the whole call deletes |
| C115 | a machine of threads over the heap of Modules (`Model/ModuleThreads.lean`): calls, steps (one attribute read, one name of a path, one assignment each) and exceptions in any order; every thread has JAX and nnx traces of its own | non-interference: simulation between a schedule and its restriction to one thread; collection and assignment look at reachable Modules only; the generator as a stack machine is proved to compute `getState` |
| C116 | the layer models of C59, C64, C76, C77 put in chains (`Spec/PerExample.lean`) | the relation "rows of" between tensors is kept by every layer; induction over the chain |
| C117 | LayerNorm and BatchNorm as in C59, C76 | mean and variance of affine images, applied to the entry formulas |
| C118 | Conv and Linear as in C64, C77 | the entry formula C64_conv; sums of combinations; the positions read for kernels of size 1 |
| C119 | the machine of C115 with the trace check of `_setattr` per thread. Assumption about JAX: the current main trace of a thread is a different object from that of every other thread (its trace stack is a `threading.local` whose first element is made per thread) | simulation as for C115; an event of a thread at another trace leaves Modules made at this one unchanged, because every assignment checks |
| C120 | chains of the layers of C116, on sequences (`Spec/Sequence.lean`), over any ordered field | induction over the chain: two sequences that agree on the last r + q times give, after a layer that looks r times back, sequences that agree on the last q times, also when the second one is a window of the first; the convolution by C64, the normalizations by C59 and C76 |
| C121 | Modules whose attributes hold references to container objects, with a store of container objects (`Model/Identity.lean`); programs of ten operations and in-place writes (`Spec/Identity.lean`) | refinement: each operation commutes with looking at the objects (a parametricity argument: `get_state`, `partition`, `pop_state` and `merge` look only at classes); the changes of the store are chains of six elementary steps, each of which keeps old containers and keeps node containers apart |
| C122 | `jax.tree_map` with `is_leaf` for Nodes (`Model/SpmdTree.lean`): `add_axis`, `remove_axis` and `get_partition_spec` on trees and on States of trees | induction over the tree with a specification of flattening up to the outermost Nodes (what is found, what is rebuilt from replaced parts, and that flattening the result again finds the replaced parts); agreement with the functions of C46 where the values are Nodes or leaves |
| C123 | what jax and nnx keep while transformations run (`Model/Tracing.lean`: `find_top_trace`, the dynamic trace, the nnx stack) and programs that nest API calls in transformations (`Spec/Tracing.lean`) | every API call changes Modules of other traces only by removing attributes (one lemma per call); inside of a noticed transformation the identity that the guard sees is newer than all Modules from before; induction over the program. The two ways around the guard are theorems too |
| C124 | which Modules an opaque value holds, as an arbitrary function (`Spec/Contained.lean`) | a clone has the same graph, so the same values and what is in them; confinement of any sequence of calls to the reached Modules (C26); the negative claim by a concrete Module with a list |
| C125 | `_abs_sq` and `_compute_stats` on complex arrays (`Model/ComplexNorm.lean`, Mathlib's ℂ); the calls are those of the real layers at ℂ | sum of squared distances expanded once (induction over the sample); entrywise specification of `_normalize` over any field; every step commutes with the inclusion of ℝ in ℂ |
| C126 | `node_types` as a list of classes and `get_state`, `get_module_def`, `partition`, `clone`, `update_state` parametrised by it (`Model/NodeTypes.lean`); `merge` does not read it | relabelling: a Module under a registry is a Module of the fixed-registry model in which every value is wrapped as an opaque object of a class that is a node iff the registry says so; the relabelling is injective and commutes with every function, so C10, C14 and the round trip carry over |
| C127 | `_build_module_recursive` and `_update_module` with a number of steps after which they are stopped (`Model/MergeInterrupt.lean`) | invariant of every step: Modules from before are the same, and Modules under construction lead to such only; hence the world is the same up to ids, and C11 and C12 apply again |
| C128 | `JitTransform.__call__` with the Module donated, arrays being pairs of a content and a buffer number, and the buffers that are gone (`Model/Donate.lean`) | run on a copy as in C49, then `update_state` with an output State whose arrays have new buffers (C14): every node is addressed by exactly one path, so every node is replaced; the State of the result has the buffers `next, next+1, ...` in order, hence none occurs twice or is gone; loops by induction |
| C129 | `_iter_state_recursive` and `_make_module_def_recursive` with a counter of loop iterations (`Model/Cost.lean`), `_update_module` and `_set_value_at_path` with a counter of calls (`Model/CostUpdate.lean`), tied to the functions without it by erasure | the traversal relation determines the count; the isomorphism of C04 counts the new Modules of merge and clone; a family of rows for update_state; a family of graphs with exponentially many paths, and one (rings) where the depth of recursion is exactly the number of Modules |
| C130 | the `__nnx_repr__` methods of `State`, `ModuleDef`, containers and Pytrees, `get_repr` as a function of the indentation around it (`Model/ReprTree.lean`) | texts printed at an indentation are the texts printed at none, moved to the right, by induction over the objects; false for Pytrees in Pytrees or Variables (general formula, and a family where the indentation grows quadratically), hence partial |
| C131 | `register_node_type` as a load and a store of the global tuple, called by any number of threads (`Model/RegisterThreads.lean`) | invariant over all schedules; false in general: two overlapping calls lose a type. A partition during registrations in turn still round trips (a generalisation of the proof of C11, `Proofs/RegisterLater.lean`) |
| C132 | `Sequence.__call__` with dictionaries as objects (`Model/SequenceDicts.lean`) | refinement: the loop over objects shows what the loop of C66 over values shows, by induction over the layers; frame for dictionaries that existed before; false in general, when a layer returns a dictionary it keeps |
| C133 | `==` of Modules: identity, `Mapping.__eq__` of `Dict`, the generated `__eq__` of dataclasses (`Model/ModuleEq.lean`) | case analysis on the class; for clones induction over the recursion limit with the Modules on the way (pigeonhole in an acyclic graph) |
| C134 | attribute lookup: properties, attributes, methods (`Model/Lookup.lean`) | case analysis; `clone` and `apply` look up the methods they call by name, then refine `cloneModule` |
| C135 | dictionaries of flags as objects, the Contexts and ContextDefs that refer to them (`Model/Flags.lean`) | invariant over all histories: dictionaries that the program does not have stay as they are; references stay; negation by witness |
| C136 | `initializers.zeros` and `ones` (`Model/Initializers.lean`) in the constructors of C86 | C87 (resp. C60) with these initialisers; all entries of one cell are normalized with the same statistics |
| C137 | `Module.init` with the number of flag assignments before an asynchronous exception (`Model/InitInterrupt.lean`) | C18 for the interrupted callback gives the Modules in visiting order; the first loop of the next init overwrites every flag that was left |
| C138 | `JitTransform.__call__`, `GradTransform.__call__` and `remat_apply` stopped after `n` assignments of its update (`Model/JitInterrupt.lean`); programs stopped after `n` steps (`Spec/JitInterrupt.lean`) | C49_raises for the stopped program; the State of the copy meets the hypotheses of C113; histories by induction |
| C139 | `Context.make_rng` and `Context.partition` stopped before or after any of their counts (`Model/RngInterrupt.lean`); histories with interrupted calls (`Spec/RngInterrupt.lean`) | the invariant of C29, which also holds when forked streams are lost |
| C140 | programs with blocks of `nnx_trace` and `logical_axis_rules` stopped after `n` steps (`Model/TraceInterrupt.lean`); the outermost blocks of a program (`Spec/TraceInterrupt.lean`) | induction over program nesting, with C35 and C47 for what was not interrupted |

## What is modelled and what is not, by source file

| file | modelled | not modelled |
|---|---|---|
| `state.py` | all of `State` and its functions | error messages, repr |
| `partitioning.py` | all | Python callables as filters that raise or keep state |
| `containers.py` | `Container`, `Node`, `Variable` classes, `with_metadata`, `check_container`, flatten/unflatten | generic type parameters |
| `nodes.py` | `is_node`, the registered classes, `register_node_type` (C126) | outside of C126 the registry is that of the library |
| `module.py` | `Module` attribute access and assignment, `partition`, `get_state`, `get_module_def`, `filter`, `pop_state`, `update_state`, `clone`, `sow`, `for_each`, `init`, `is_initializing`, `ModuleDef`, `Pure` (both also as pytrees), `apply`/`call` proxies, `MutableLeaf`, dataclass fields, the traversal done by repr | the text of reprs; mutating static Python objects in place |
| `contextlib.py` | `RngStream`, `Context`, `fork`, `copy`, `partition`/`merge`, `context(...)`, rng filters, whose dictionary the flags are (`Model/Flags.lean`) | keys' internal representation; seeds and keys of other types than int and jax.Array (they are stored as they are and fail at the first draw) |
| `ids.py` | all (`UUID.__deepcopy__` in C97) | `UUID.__copy__` (it draws a new id, covered by C34) |
| `tracers.py` | trace stack, `nnx_trace`, `TraceState.is_valid`; `get_top_trace` and `current_jax_trace` over a model of jax's `find_top_trace` (C123; in the models of the transforms the traces are parameters) | `get_all_traces`, `trace_level` (not used) |
| `pytreelib.py` | `Pytree`, `TreeNode`, flatten/unflatten, `replace`, state dicts, the mutability guard, `del obj.x` | writes through `vars`, registration with jax |
| `spmd.py` | rules, `_logical_to_mesh_axes`, `with_logical_constraint`, `add_axis`/`remove_axis`, `get_partition_spec`, `sharding_hook`, thread-local rules context, `logical_to_mesh`, `logical_to_mesh_sharding` | the mesh itself, what a constraint does |
| `transforms.py` | `jit`, `grad`, `scan_apply` (with `in_axes`, `out_axes`), `scan_init`, `remat_apply`, static_argnums, `donate_argnums=0` (`Model/Donate.lean`), the classes `Remat` and `Scan` | options passed through to jax (other `donate_argnums`, `unroll`, `policy`, ...); `lower` |
| `helpers.py` | `Sequence`, `Dict`, `TrainState` (with `apply` on attributes that hold States), `has_keyword_arg` on a given signature | `inspect.signature` |
| `dataclasses.py` | `field` and its variants, `_meta_call` | `dataclasses` itself: only generated `__init__` |
| `reprlib.py` | `get_repr` for Modules: traversal, state of the printer and text (C70); for States, ModuleDefs, containers and Pytrees: text (C130) | `repr` of `ModuleState`, `TraceState`; subclasses that override `__repr__` |
| `nn/linear.py` | `Linear`, `Conv`, `Embed`: constructors and calls | `precision`, custom `dot_general`, `conv_general_dilated`; initialisers are arbitrary functions |
| `nn/normalization.py` | `BatchNorm`, `LayerNorm`: constructors and calls, `_compute_stats`, `_normalize`, axes (`axis_name` too: the devices run in lock step and `lax.pmean` is written down from its documentation) | complex inputs with `axis_name` or with a given `dtype`; an `axis_name` together with devices whose inputs differ in shape |
| `nn/stochastic.py` | `Dropout` | |
| `nn/dtypes.py` | `canonicalize_dtype`, `promote_dtype` | jax.numpy's promotion lattice (a parameter) |
| `nn/activations.py` | nothing: it re-exports jax | |
| `nn/initializers.py` | `zeros`, `ones` | the re-exported random initialisers of jax: arbitrary functions of key and shape |

## Disagreements between the code and what a user would expect

Each is proved as a theorem about the model unless marked "(read)": then it was only read in the code.

1. `pop_state` does not return on a module graph with a reference cycle; it visits in insertion order; it ignores the trace guard
   (C17_cycle_never_returns, C17_returns_only_if_acyclic, C17_path_filter_misses, C21_pop_not_guarded). It does not check that `...`
   comes last (C17_pop_state_partial holds for filters in any order).
2. `Pure.update_state` keeps the old values where a path is in both (C25_updates_lost).
3. `Pure.pop_state(...)` raises (C26).
4. `DelayedAccessor` keeps only the last access of a chain: `module.init.a.b(...)` calls `module.b` (C27). A method called `accessor` is never reached: `module.apply.accessor(...)` calls the module itself, because the name is found as the field of `DelayedAccessor` (C27_accessor).
5. Attribute names containing "/" break `merge`; static attributes starting with "_module__" are dropped (C11_slash_breaks_merge, C11_slash_moves, C11_reserved_dropped; hypothesis of C11).
6. `update_state` is not atomic, can replace a submodule by a value, and with conflicting entries for an alias the result depends on
   their order (C14, C15_conflict_not_idempotent). `jit` does not carry back deletions and static changes, and raises KeyError for a new
   submodule (C49).
7. `ModuleDef.__eq__` and `__hash__` ignore `index` and `module_state` (C23_index_ignored), so the jit cache returns a compilation made
   with other initializing flags (C75_stale_flags).
8. `len(Sequence([])) == 1`; iterating a `Dict` also gives `"_module__state"`; negative indices of a `Sequence` and missing keys of a
   `Dict` are AttributeErrors (C67). `key in d` is True for the names of methods and properties, given or not, and never False (C67_dict_contains). Dict keys called like properties of Module ("init", "is_initializing", "apply") are shadowed (C134_property_hides). `==` of two `Dict`s with the same contents is False, since `Mapping.__eq__` also compares "_module__state" (C133_same_contents, C133_plain_dict). When a layer of a `Sequence` returns a dict, `Sequence.__call__` writes the entry "ctx" into this very dict; if the layer keeps it, a later call without `ctx` hands the next layer the old context (C132_stale).
9. `MutableLeaf.sharding` raises AttributeError for Nodes, which have no `metadata` attribute (C22_sharding_raises).
10. `ContextDef` is not registered as a pytree although it is a child of `PureContext`, so `nnx.jit` never accepts a Context; and it would merge it
    before entering its trace (C99_jit_raises, C99_jit_merges_outside).
11. `add_axis`/`remove_axis` are inverse only for `0 <= index <= len(sharding)` (C46). Its check is an `assert` with a side effect,
    lost under `python -O` (read).
12. `nnx.scan` on `__init__` with a partition name raises ValueError because `update_state` compares metadata (C81).
13. In `scan_apply` the difference for new broadcast variables is taken the wrong way round (C54); with `reverse=True` and new carry
    variables the first slice is processed first (C53_reverse_new_carry_wrong).
14. `del` of a Pytree attribute is not guarded, also on immutable Pytrees, and the object can then not be flattened (C41_del_not_blocked).
15. The end of a nested `init` clears the initializing flags of the outer one (C19_nested_clears_early).
16. `copy.copy(module)` shares the id, so what is assigned to the copy is lost when both are in one model (C97_shallow_copy_ignored).
    `copy.deepcopy(module)` copies the trace objects, which are compared by identity, so no attribute of the copy can be assigned
    (C97_deep_copy_frozen). `Context.copy` shares streams (the histories of C29 and C30 include copies).
17. The error message for an invalid filter raises a formatting error itself (read).
18. Nested `with_metadata` does not unwrap (C39_nested_not_unwrapped).
19. Dropout with rate 0 raises if `deterministic` is not given anywhere (C57/C58).
20. `clone` shares static values by reference (note of C12).
21. Two streams made with the same seed give the same keys (C29's last theorems).
22. The state-dict round trip loses Pytrees wrapped in a Node (C43_boxed_pytree_lost).
23. `replace` of a dataclass Pytree drops the containers of plain fields (C42_dataclass_drops_container).
24. `replace` with an unknown field on a mutable class is an AttributeError (C42).
25. `with_logical_constraint` with RAISE_ERROR raises for dimensions without a name (C48).
26. `remat`'s negative `static_argnums` below `-len(args)` hit the prepended arguments (C56_out_of_range).
27. `scan`'s `data_transform` is ignored; a new carry variable that holds None is not merged (read; hypothesis of C54).
28. `BatchNorm` with an axis below `-rank` reduces over all axes (C61_out_of_range). CAUSAL and CIRCULAR padding keep the length only
    with `input_dilation=1` (C63).
29. After an exception in `repr` the set of seen modules is not cleared until the generator is collected (C70_stale_seen); string
    attributes are shown without quotes (read).
30. `nnx.Scan` with a context but nothing to split or stack needs a length nevertheless (C80_needs_length).
31. A `LayerNorm` with `axis_name` that reduces all axes raises `ValueError` where one without `axis_name` works: the statistics, which have no axes, are joined with `jnp.concatenate` (C88_all_axes).
32. `jax.tree_map(float, pytree)` turns the fields of a Pytree that hold bare arrays into static fields, so that the tree structure changes
    and the next `tree_map` skips them; fields in a Node or Variable are not affected (C93_bare_arrays).
33. `hash(model.get_module_def())` raises TypeError if an `nnx.Remat` or `nnx.Scan` Module is in the model (C100 and the example beside it; that
    the options are unhashable was read).
34. examples/09_parameter_surgery.py announces a filter for "all the parameters that are not part of the backbone" and writes `path.startswith("backbone")`, which
selects the backbone, and every other attribute whose name begins with "backbone" (`C105_example_filter`).
35. A `BatchNorm` made for one feature accepts inputs of any number of features in training: its running statistics broadcast and take the shape of the
batch statistics. Without scale and bias the call succeeds (`C59_one_feature_grows`); with them it raises after the statistics were overwritten (`C59_one_feature_spoilt`).
36. Modules of classes made with `dataclass` are unhashable, although `Module` defines `__hash__`: the default `eq=True` makes Python set `__hash__` to None. This
applies to `nnx.Dropout` (C110_dataclass).
37. `nnx.jit(f).lower(module, ...)` passes the Module to the jitted function, which expects a Pure, so that jax rejects it (read).
38. `SEEN_MODULES_REPR` is shared by threads while the indentation is thread-local. Concurrent calls of `repr` can abbreviate the root (C111_race_omits), raise TypeError or
AttributeError (C111_race_raises), or leave the set behind for ever, after which the Modules in it are never written out again (C111_race_sticks, C111_stuck).
39. `stream.count` is read twice and written once in `make_rng` and `fork`, without a lock: threads that share a stream can draw the same key, and later repeat earlier keys (C112_race_same_key,
C112_race_repeats).
40. `pop_state` collects what it removes in local dicts: values removed before an interruption (KeyboardInterrupt) are lost, calling it again does not return them (C114_lost).
41. `update_state` reads the whole state and assigns all of it again: an update or assignment made in between at the same trace, as in a signal handler, is lost, also when it concerns another variable (C115_lost_update, C115_lost_assignment).
42. A Module can only be assigned to in the thread in which it was made: `TraceState.is_valid` compares the traces by identity, and every thread has its own (C119). In other threads assignments and `update_state` raise TraceContextError even outside of all transforms. This is what protects Modules from lost updates; but a model built in one thread cannot be trained in another. `pop_state` and `del` are not checked (C119_pop_unchecked).
43. The containers in a State from `get_state` or `partition` are those of the Module, although `State` is immutable and `merge`, `update_state` and assignments copy: `state["w"].value = x` changes the Module (C121_state_aliases). And `Static` containers are not copied by `merge` and `clone`, so a write to one changes the Module and all of its clones (C121_static_shared).
44. The guard of Modules compares the dynamic trace of jax and the nnx trace. `jax.grad`, `jax.jvp` and `jax.vmap` used directly change neither, so inside of them a tracer can be assigned to a Module from outside, without an error, and stays there (C123_direct_leak). And `nnx.grad` pushes the top trace of the State it differentiates: if that is empty, the trace pushed is the dynamic one, and inside of another `nnx.grad` this lets assignments to Modules from outside of both through (C123_empty_leak).
45. Modules in a list, tuple or dict attribute are static values, not submodules: their parameters are missing from the State, `clone` and `merge` share them with the original (C124_not_independent), so they are silently not trained and not saved.
46. With `donate_argnums=0`, `m.clone()` does not protect from the donation: a clone shares the arrays of `m`, and all of them are deleted when `m` is donated (C128_clone). The same holds for a State taken before the call, for any other Module that shares an array, and for `m` itself with `stateful=False` (C128_stateless) or in attributes the function deletes (C128_deleted).
47. `Pytree.__nnx_repr__` and `Container.__nnx_repr__` yield `repr(value)`, a text, instead of the value, so `get_repr` cannot tell that a Pytree inside has been indented already, and indents it again (C130_doubled, C130_doubled_variable): the innermost field of `n` Pytrees in one another is `n * (n + 1)` spaces to the right instead of `2 * n` (C130_quadratic), and closing brackets are not aligned.
48. `register_node_type` reads the global tuple and assigns a longer one (`node_types += (node_type,)`), without a lock. If two threads do this at the same time, one of the two types may be missing afterwards, although both calls returned (C131_lost); a partition during this can lose the values of the type altogether, because `get_module_def` still sees a node and `get_state` no longer does (C131_partition_loses). Whether a thread is ever stopped between the load and the store depends on the interpreter; the language promises nothing.
49. `==` of Modules of a dataclass compares fields without their containers: Modules whose Variables differ in class or metadata, such as sharding, are equal
    (C133_dataclass and the example below it).
50. An attribute called like a property of Module (`init`, `is_initializing`, `apply`) can be assigned without an error and is part of the state, but reading it,
    also through a `MutableLeaf` or a `Dict`, gives the property (C134_property_hides). An attribute called like a method takes its place: after
    `m.partition = x`, `m.clone()` and `m.apply` raise TypeError (C134_method_lost).
51. `nnx.context(flags=d)` keeps the caller's dictionary (C135): after `d["train"] = False` the Context, and its copies, have another flag (C135_changes). If `d` was empty, the Context does not see later changes (`flags or {}`), and a merged Context never does.
52. `Module.init` marks the Modules before its `try` block (C137): an interrupt during this loop leaves Modules that say `is_initializing` although no init is running (C137_left_marked). The next init of the same Module repairs it (C137_repeat).
53. `nnx.jit` updates the Module attribute by attribute (C138): interrupted in between, it leaves a mixture of the old and the new state (an optimiser step without its counter, say), and calling the step again does not repair it (C138_torn).
54. `nnx_trace` appends to the stack before its `try` (C140): an interrupt right after it, or in the `finally` clause before `pop`, leaves a trace on the stack of the thread, and no Module or Context made before can be used there again (C140_leaks, C140_unusable). `logical_axis_rules` sets the rules inside of its `try`; only an interrupt in its `finally` clause leaves other rules (C140_rules).


## Testing the theorems against wrong programs

`seeded/LOG.jsonl` has a line per attempt: a definition of the model was changed in a scratch copy, everything was rebuilt, and the
claim theorems that failed (directly or because a lemma they use failed) are listed. Theorems that still proved although their claim had
become false were restated in terms of an independent specification ("tightened"). Edits that survived because they do not change the behaviour, or only where nothing is claimed, have a note that says so. Edits that broke the compilation of the
model itself are not counted as tests.

## Trusted base

* Lean 4.33.0's kernel, and at most the axioms `propext`, `Classical.choice`, `Quot.sound` (list below). No `sorry`, no axioms of
  our own, no `native_decide`, `bv_decide` or `implemented_by`.
* That the model mirrors the Python code: it was written by hand from the text of `/repo`; the citations make checking possible.
* The descriptions of jax, numpy and optax listed above.
* Mathlib is used for lists, order and field arithmetic; its theorems are checked by the same kernel.

### Axioms of the theorems in MANIFEST.json

* **propext, Classical.choice, Quot.sound** (446 theorems): C01_partition_exactly_one, C01_partition_first_match, C02_filter_total, C02_partition_fails_iff, C03_merge_partition, C04_filter_restricts, C04_filter_single, C05_canonical, C05_insertion_order_irrelevant, C05_last_wins, C05_strictly_sorted, C06_merge_assoc, C06_merge_last_wins, C06_merge_laws, C07_algebra, C07_lookup, C08_treeMap, C08_treedef, C08_unflatten_flatten, C09_boolean_algebra, C09_filter_meaning, C09_string_filter, C100_hashable_iff, C101_remat_call, C101_remat_new, C101_scan_call, C101_scan_layers, C102_pure_call, C102_pure_loop, C102_pure_step, C103_componentwise, C103_misfit, C103_round_trip, C103_round_trip_flat, C103_too_many_leaves, C103_tree_map, C104_as_nnx_scan, C104_constructed, C104_hand_written_init, C104_hand_written_scan, C104_other_variables, C104_wrong_length, C105_replace, C105_select, C105_submodule_state, C105_update, C105_update_succeeds, C106_program, C106_reads, C106_same_state, C107_noop, C107_selects, C107_total, C107_transfer, C108_collects, C108_rounds, C108_same_model, C108_without_sows, C109_linear, C109_mean, C109_rate_one, C10_budget_irrelevant, C10_get_state_entries, C10_get_state_returns, C10_node_types, C110_hash_fixed, C110_keys, C110_stores, C111_exclusive_partial, C111_finishes, C111_stuck, C111_text_partial, C112_key_partial, C113_between, C113_repeat, C114_lost, C114_repeat, C115_atomic, C115_no_interference, C115_update, C116_others, C116_per_example, C116_training, C117_batch_norm, C117_layer_norm, C117_layer_norm_shift, C118_combination, C118_groups, C118_pointwise, C119_single_writer, C11_partition_merge, C11_partition_returns, C120_prefix, C120_same_padding, C120_sliding, C120_window, C121_as_values, C121_in_place, C121_merge_fresh, C121_new_objects, C121_popped, C121_separate, C121_snapshot, C121_state_aliases, C122_add, C122_partition_spec, C122_remove, C122_remove_add, C122_state_add, C122_state_remove, C124_calls_miss, C124_changes_unseen, C124_clone_shares, C124_merge_shares, C125_layer_norm, C125_output, C125_real_batch_norm, C125_real_layer_norm, C125_rotation, C125_running, C125_stats, C125_training, C126_clone, C126_get_state, C126_is_node, C126_register_more, C126_round_trip, C126_static_fields, C126_update, C126_update_succeeds, C127_repeat, C127_repeat_clone, C128_clone, C128_donated, C128_gone, C128_loop, C128_raises, C128_stateless, C128_twice, C129_clone, C129_clone_diamonds, C129_depth, C129_get_module_def, C129_get_state, C129_many_paths, C129_merge, C129_ring, C129_update_row, C129_update_state, C12_clone_fresh, C12_clone_independent, C12_clone_unaffected, C130_def, C130_def_nested, C131_in_turn_partial, C131_library_nodes, C131_registered_between, C132_as_values, C133_clone, C133_clone_plain, C133_dataclass, C133_same_contents, C134_apply_partial, C134_method_lost, C134_property_hides, C134_read_partial, C135_copy, C135_fixed_partial, C135_merge, C135_no_flags, C135_with_flags, C136_batch_norm, C136_batch_norm_training, C136_conv, C136_layer_norm, C136_linear, C137_marking, C137_repeat, C137_unmarking, C138_before, C138_before_others, C138_between, C138_grad, C138_history, C138_remat, C139_draws_distinct, C139_keys_distinct, C139_partition, C139_usable, C13_filtered_round_trip, C14_addressed_updated, C14_frame, C14_succeeds, C14_succeeds_limit, C15_own_state, C15_repeat, C16_kind_preserved, C16_mismatch_error, C16_mismatch_rejected, C17_nothing_left_partial, C17_pop_state_partial, C18_for_each, C19_init, C19_only_init_changes_flags, C20_sow_accumulates, C20_sow_frame, C20_sow_succeeds, C21_creation_trace, C21_update_needs_trace, C21_update_refused, C22_paths_and_reads, C22_sharding_otherwise, C22_sharding_raises, C22_write, C23_equal_defs_same_structure, C24_clone_same_def, C24_partition_canonical, C24_partition_complete, C25_update_state_partial, C26_get_state, C26_partition, C26_pop_state, C26_pop_state_succeeds, C26_unpacked, C28_def_apply, C28_module_apply, C29_draws_distinct, C29_keys_distinct, C30_key_value, C30_reproducible, C30_stream_state, C30_streams_independent, C32_new_context, C32_partition_merge, C33_rng_filters, C35_thread_block, C35_thread_local, C36_double_wrap, C36_wrapping_locks_kind, C37_replace, C37_replace_by_container, C39_with_metadata, C40_assignment_order, C40_children, C40_constructed, C40_replace_children, C40_round_trip, C40_structure, C40_unset_field, C41_del_not_blocked, C41_del_refused, C41_history, C41_immutable, C41_mutable_assign, C41_no_new_fields, C42_dataclass, C42_dataclass_unknown, C42_non_destructive, C42_replace, C42_unknown, C43_keys_match, C43_missing_or_extra, C43_restore, C43_restore_nested, C43_round_trip_partial, C43_saved_again, C44_disjoint, C44_from_rules, C44_once, C44_total, C45_applied_unique, C45_first_free, C45_no_rule, C45_none_pins, C45_priority, C46_add, C46_add_remove_partial, C46_only_sharding, C46_remove, C46_remove_add, C46_remove_add_partial, C46_remove_error, C46_remove_iff, C48_no_mesh, C48_table, C49_raises, C49_same_effect, C50_stateless, C51_evaluated_at, C51_grad, C51_gradient_paths, C51_raises, C51_stateless, C52_bad_length, C52_raises, C52_scan_is_loop, C53_reverse_fresh_partial, C53_reverse_partial, C54_new_carry_partial, C54_new_variables_partial, C54_scan_is_fresh_loop, C55_split_rngs, C56_raises, C56_same_effect, C58_mask, C59_history, C59_one_feature_grows, C59_one_feature_spoilt, C59_other_features_running, C59_other_features_training, C59_range, C59_running, C59_training, C60_mean_zero, C60_output_variance, C60_stats, C60_variance, C61_canonicalize, C61_cover, C61_out_of_range_call, C62_axes, C62_pairs, C62_permutations, C62_rejects, C63_causal, C63_causal_length, C63_circular, C63_circular_length, C64_batch, C64_conv, C64_same_length, C66_call, C66_unique, C67_dict_contains, C67_dict_keys_false, C67_dict_missing, C67_dict_partial, C67_empty, C67_key_name, C67_negative, C67_sequence, C68_clash, C68_history, C68_start, C68_step, C69_fields, C69_module_fields, C70_repr, C71_identity_stable, C71_ids_unique, C71_reachable_worlds_well_formed, C72_unreplaced_fields_partial, C74_read, C76_layer_norm, C77_combination, C77_linear, C79_scan_named, C79_wrong_name, C80_constructor_raises, C80_must_agree, C80_needs_length, C80_plain, C80_scan_init, C81_method_raises, C81_must_agree, C81_needs_length, C81_partition_name_raises, C81_scan_init_method, C82_interchangeable, C82_merged, C83_constructed_layers, C83_scan_of_layers, C84_logical_to_mesh, C84_logical_to_mesh_sharding, C85_bad_length, C85_bad_out_axes, C85_reverse, C85_scan_call, C86_batch_norm, C86_conv, C86_keys_distinct, C86_layer_norm, C86_linear, C86_model, C86_reproducible, C87_batch_norm, C87_conv, C87_layer_norm, C87_linear, C88_all_axes, C88_batch_norm, C88_data_parallel, C88_history, C88_layer_norm, C88_replicas, C88_running, C89_draws_distinct, C89_keys_distinct, C89_repeats, C89_scan_contexts, C89_unsplit_repeats, C90_budget, C90_budget_grad, C90_nested, C90_removed, C91_scan_of_transformed, C91_transformed_scan, C92_deterministic, C92_without_transforms, C93_compose, C93_identity, C93_leaves, C93_misfit, C93_raises, C93_round_trip, C93_state_map, C93_state_raises, C93_structure, C93_tree_map, C93_update, C94_loss_raises, C94_misfit_raises, C94_sgd, C94_train_step, C95_loop, C95_partition, C95_step, C96_functional, C96_loop, C96_step, C97_clone_thaws, C97_deep_copy_frozen, C97_deep_copy_independent, C97_deep_copy_partial, C97_shallow_copy_ignored, C98_merge_loads, C98_update_from, C98_update_from_other_type, C98_update_loads, C99_fresh_keys, C99_jit_merges_outside, C99_jit_raises, C99_other_trace, C99_remat_ctx, C99_streams, exScan
* **propext, Quot.sound** (162 theorems): C02_misplaced_ellipsis, C09_leftmost_fault, C101_missing_inner, C102_no_states, C105_example_filter, C105_shared_submodule, C107_partition, C10_internal_names, C111_race_omits, C111_race_raises, C111_race_sticks, C112_distinct_partial, C112_in_turn_partial, C112_own_streams, C112_race_repeats, C112_race_same_key, C113_conflict, C114_not_stopped, C115_atomic_attr, C115_atomic_get, C115_atomic_pop, C115_atomic_sow, C115_frame, C115_lost_assignment, C115_lost_update, C115_torn_read, C119_frozen, C119_pop_unchecked, C119_raises, C11_reserved_dropped, C11_slash_breaks_merge, C11_slash_moves, C121_static_shared, C122_flat, C122_no_name, C123_after, C123_clean, C123_direct_leak, C123_empty_leak, C123_good, C123_inside, C123_no_leak, C123_refused, C123_unseen, C124_not_independent, C126_stale_state, C126_unregistered, C127_clone, C127_complete, C127_complete_clone, C127_merge, C127_raises, C128_deleted, C130_container, C130_doubled, C130_doubled_variable, C130_quadratic, C130_state, C131_lost, C131_partition_loses, C132_frame_partial, C132_no_ctx, C132_only_ctx, C133_dict_partial, C133_plain_dict, C134_clone_partial, C134_frame, C134_method, C135_partition, C137_left_marked, C137_state, C137_traced_again, C138_torn, C139_make, C140_in_time, C140_leaks, C140_leftover, C140_never_repaired, C140_too_late, C140_unusable, C14_alias_conflict, C14_not_atomic, C14_overwrites_submodule, C15_conflict_not_idempotent, C17_cycle_never_returns, C17_path_filter_misses, C17_returns_only_if_acyclic, C19_nested_clears_early, C21_pop_not_guarded, C21_success_needs_trace, C21_update_protects, C23_equal_defs_hash_equal, C23_equal_defs_merge_equal, C25_updates_lost, C26_filter, C27_accessor, C29_merge_twice_collides, C29_same_seed_collides, C31_errors, C31_failure_consumes_nothing, C31_trace_level, C34_copy_is_new, C34_ids_unique, C35_inside, C35_stack_restored, C38_copy_eq, C38_eq_equivalence, C38_eq_iff, C38_node_roundtrip, C43_to_state_dict, C46_negative_pops_other, C47_inside, C47_thread_restored, C48_tree, C48_value_kept, C49_deletion_lost, C49_new_submodule_raises, C49_static_change_lost, C52_bad_filters, C53_reverse_new_carry_wrong, C54_deleted_broadcast_stacked, C54_new_broadcast_lost, C56_out_of_range, C56_static_argnums, C57_context_flag, C57_first_from, C57_raises, C58_identity, C58_no_context, C58_no_stream, C58_rate_one, C58_unspecified, C58_world, C60_nonneg, C61_out_of_range, C63_causal_rank, C65_inexact, C65_nothing, C65_one_dtype, C69_wrong_call, C70_stale_seen, C70_text, C73_get_partition_spec, C75_cache_transparent_partial, C75_stale_flags, C77_mismatch, C78_attend, C78_lookup, C78_round_trip, C86_conv_int, C86_embed, C86_errors, C86_history, C87_embed, C93_bare_arrays, C93_leaf_count, C96_apply, C96_apply_raises, C96_raises, C97_deep_copy_not_assignable, C99_recording, stepCtx_keys
* **propext** (44 theorems): C09_buffers, C09_class_filter, C110_dataclass, C130_nested_partial, C130_state_nested, C131_any_schedule, C132_stale, C133_identity, C133_other_class, C135_changes, C140_body, C140_rules, C140_rules_repaired, C20_sow_rejects, C21_assign_refused, C22_deleted, C23_eq_equivalence, C23_index_ignored, C27_only_last_access, C27_short_chains_partial, C34_call_returns, C35_trace_state, C38_eq_other, C38_static_roundtrip, C39_nested_not_unwrapped, C42_dataclass_drops_container, C42_mutable_unknown_attributeError, C43_boxed_pytree_lost, C44_none, C46_negative_counterexample, C46_no_name, C46_short_counterexample, C47_restored, C47_threads, C48_no_rules_or_spec, C48_unnamed_raises, C57_precedence, C62_string, C65_inferred, C65_uniform, C68_optimiser_error, C74_read_as_stored, C78_integer, C97_shallow_copy
* **none** (4 theorems): C123_start, C27_chain_not_followed, C47_block_restores, C65_explicit
