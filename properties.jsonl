{"id": "C01", "title": "State.partition assigns every entry to its first matching filter, losing and duplicating nothing", "statement": "If state.partition(f1,...,fn) returns (s1,...,sn), then for every path k: k is in exactly one si iff k is in state, that si is the one of the first filter fi for which fi matches (k, state[k]), and si[k] is state[k].", "quantifier": "every State (any number of entries, any leaf values), every list of filters (types, predicates, ..., None, tuples, Not/All/Any nests), every path", "why_tests_cant": "Tests check a handful of states and two or three type filters; overlap/priority between arbitrary filters over arbitrary states is an unbounded space.", "anchors": ["nnx/state.py:State.partition", "nnx/state.py:_split_state", "nnx/partitioning.py:to_predicate"]}
{"id": "C02", "title": "State.partition fails exactly when it must", "statement": "state.partition(filters) raises ValueError if an Ellipsis filter occurs at a non-last position; otherwise (all filters convertible) it raises ValueError iff some entry matches no filter; otherwise it succeeds with exactly len(filters) substates. state.filter never raises for unmatched entries.", "quantifier": "every State and every non-empty filter list", "why_tests_cant": "The iff direction (never a spurious failure, never a silent drop) ranges over all states and filters.", "anchors": ["nnx/state.py:State.partition", "nnx/state.py:State.filter", "nnx/state.py:_split_state"]}
{"id": "C03", "title": "State.merge undoes State.partition, in any order of the pieces", "statement": "If state.partition(filters) succeeds with pieces s1..sn then State.merge of any permutation of the pieces is equal to the original state, including iteration order.", "quantifier": "every State, every filter list for which partition succeeds, every permutation of the pieces", "why_tests_cant": "Order independence over all permutations and all states cannot be enumerated.", "anchors": ["nnx/state.py:State.merge", "nnx/state.py:State.partition"]}
{"id": "C04", "title": "State.filter is exactly restriction to the entries claimed by each filter", "statement": "state.filter(f) contains precisely the entries of state matching f, with the same values; state.filter(f1,..,fn) returns for each i the entries whose first matching filter is fi; unmatched entries appear in none.", "quantifier": "every State and every list of filters (with Ellipsis only last)", "why_tests_cant": "Universally quantified over states and predicates.", "anchors": ["nnx/state.py:State.filter", "nnx/state.py:_split_state"]}
{"id": "C05", "title": "State iteration order is canonical", "statement": "Every State obtainable through the API (construction from any mapping or pair sequence, partition, filter, merge, |, -, tree_map/unflatten) iterates over strictly increasing paths; hence two States holding the same mapping have the same iteration order, the same pytree structure and the same leaf order regardless of how they were built. When a pair sequence repeats a path, the last value wins.", "quantifier": "every finite history of State-producing operations; every insertion order", "why_tests_cant": "Needs an invariant over all operation histories; __sub__ and unflatten skip the sort, so the invariant is not local.", "anchors": ["nnx/state.py:State.__init__", "nnx/state.py:State.__sub__", "nnx/state.py:_state_unflatten", "nnx/state.py:State.merge"]}
{"id": "C06", "title": "State.merge is last-writer-wins, associative, with the empty State as identity", "statement": "For every path k, State.merge(s1,..,sn)[k] is the value in the last si containing k, and k is absent iff it is absent in all; merge is associative, idempotent, and the empty State is a left and right identity; pieces with disjoint paths commute.", "quantifier": "all tuples of States, all paths", "why_tests_cant": "Algebraic laws over all states.", "anchors": ["nnx/state.py:State.merge", "nnx/state.py:State.__or__"]}
{"id": "C07", "title": "State difference and union form the expected key algebra", "statement": "(a - b) contains exactly the entries of a whose path is not in b; (a - b) | b has the paths of a union b and agrees with b on b; a | (b - a) agrees with a on a; (a - b) - c = a - (b | c); a - a is empty.", "quantifier": "all States a, b, c", "why_tests_cant": "Algebraic laws over all states.", "anchors": ["nnx/state.py:State.__sub__", "nnx/state.py:State.__or__"]}
{"id": "C08", "title": "State is a lossless pytree", "statement": "Flattening a State and unflattening with the same leaves gives back the same State; unflattening with new leaves keeps the paths and replaces values position by position, so tree_map over a State maps each value and keeps paths; two States have equal treedef iff they have the same set of paths.", "quantifier": "every State and every leaf function", "why_tests_cant": "Round-trip law over all states.", "anchors": ["nnx/state.py:_state_flatten_with_keys", "nnx/state.py:_state_unflatten"]}
{"id": "C09", "title": "Filters denote the boolean algebra they are documented to be", "statement": "A type filter matches iff isinstance; ... matches all; None matches nothing; a tuple matches iff some component matches; Not/All/Any are negation/conjunction/disjunction; so De Morgan, double negation, commutativity of All/Any hold; converting a filter fails iff a string or another invalid literal occurs somewhere inside it, with the exception of the leftmost one (TypeError for a string), and State.partition and State.filter raise it too.", "quantifier": "every filter expression of any nesting depth, every (path, value)", "why_tests_cant": "Filter expressions nest without bound.", "anchors": ["nnx/partitioning.py:to_predicate", "nnx/partitioning.py:Any", "nnx/partitioning.py:All", "nnx/partitioning.py:Not", "nnx/partitioning.py:OfType"]}
{"id": "C10", "title": "get_state terminates on every object graph and lists every reachable node attribute exactly once", "statement": "For every Module, with arbitrary sharing and reference cycles, get_state returns; its entries are in one-to-one correspondence with the (reachable module, node attribute) pairs; each entry's path, followed attribute by attribute from the root, leads to that attribute and holds its value.", "quantifier": "every finite module graph (any size, depth, sharing, cycles) whose attribute names contain no '/'", "why_tests_cant": "Graph shapes are unbounded; termination on all cyclic graphs is not testable.", "anchors": ["nnx/module.py:_iter_state", "nnx/module.py:_iter_state_recursive", "nnx/module.py:_get_module_state"]}
{"id": "C11", "title": "partition then merge rebuilds an isomorphic module graph (sharing and cycles included)", "statement": "For every Module m, m.partition().merge() returns a module m2 such that every attribute-access path observes the same thing from m2 as from m (same class, same static value, same node value, same is_initializing) and two access paths lead to the same object from m iff they do from m2.", "quantifier": "every finite module graph with arbitrary sharing and cycles (names without '/' and without the reserved prefix), every pair of access paths", "why_tests_cant": "The isomorphism must hold for every graph and all pairs of paths.", "anchors": ["nnx/module.py:Module.partition", "nnx/module.py:ModuleDef.merge", "nnx/module.py:_make_module_def_recursive", "nnx/module.py:_build_module_recursive", "nnx/module.py:_update_module"]}
{"id": "C12", "title": "A clone shares no mutable Module with the original", "statement": "Every Module object reachable from m.clone() is newly created with a fresh id, and cloning changes no existing Module; therefore any later assignments through the clone are invisible from the original, and vice versa.", "quantifier": "every module graph; every later sequence of assignments on either side", "why_tests_cant": "Non-interference for all later histories.", "anchors": ["nnx/module.py:Module.clone", "nnx/module.py:_build_module_recursive", "nnx/ids.py:UUIDManager.__call__"]}
{"id": "C13", "title": "Filtered partition then merge is also lossless", "statement": "For every Module m and filters for which m.partition(f1..fn) succeeds, merging the pieces in any order gives the same result as m.partition().merge().", "quantifier": "every module graph, every successful filter list, every permutation of the pieces", "why_tests_cant": "Combines unbounded graphs, filters and permutations.", "anchors": ["nnx/module.py:Module.partition", "nnx/module.py:ModuleDef.merge", "nnx/state.py:_split_state"]}
{"id": "C14", "title": "update_state changes exactly the addressed attributes", "statement": "If m.update_state(u) succeeds, then afterwards every path in u resolves to the value given by u (last state in a tuple wins), every other node attribute, static attribute, class, id and reference of every module is unchanged, and no other Module is touched.", "quantifier": "every module graph, every update State (or tuple of States) with existing or new leaf paths, including alias paths to shared modules", "why_tests_cant": "Frame condition over every object in the heap, for every update.", "anchors": ["nnx/module.py:Module.update_state", "nnx/module.py:_update_module", "nnx/module.py:_set_value_at_path", "nnx/module.py:Module._setattr"]}
{"id": "C15", "title": "update_state with the module's own state is a no-op, and repeating an update changes nothing more", "statement": "m.update_state(m.get_state()) succeeds and leaves the module observably identical; after m.update_state(u), a second m.update_state(u) changes nothing.", "quantifier": "every module graph and update", "why_tests_cant": "Idempotence for every graph.", "anchors": ["nnx/module.py:Module.update_state", "nnx/module.py:_update_module"]}
{"id": "C16", "title": "update_state never changes a Variable's kind or metadata", "statement": "After update_state, every attribute that held a container still holds a container of the same class with the same metadata; an update whose container has a different class or metadata raises ValueError instead of being stored.", "quantifier": "every module graph, every update", "why_tests_cant": "Type preservation over all updates.", "anchors": ["nnx/containers.py:Container.replace", "nnx/containers.py:Container.is_equivalent", "nnx/module.py:Module._setattr"]}
{"id": "C17", "title": "pop_state removes exactly the matching attributes and returns them", "statement": "m.pop_state(f1..fn) returns, and removes from the module graph, exactly the node attributes matched by some filter (each in the State of its first matching filter, under a path that led to it), and leaves everything else unchanged; on return get_state contains no matching entry.", "quantifier": "every finite module graph and filters", "why_tests_cant": "Graph shapes are unbounded. NOTE: false for cyclic graphs - the traversal marks a module visited only after processing it, so pop_state never terminates on a reference cycle.", "anchors": ["nnx/module.py:Module.pop_state", "nnx/module.py:_pop", "nnx/module.py:_pop_recursive"]}
{"id": "C18", "title": "for_each calls the function exactly once on every reachable module of the given type", "statement": "m.for_each(T, fn) terminates on every graph, and calls fn exactly once on each reachable module that is an instance of T and on nothing else, no matter how many references or cycles lead to it.", "quantifier": "every module graph, every T", "why_tests_cant": "All graph shapes.", "anchors": ["nnx/module.py:Module.for_each", "nnx/module.py:Module._on_all"]}
{"id": "C19", "title": "init marks every reachable module as initializing during the call and unmarks it afterwards, even on error", "statement": "When the method called through m.init starts, every module reachable from m reports is_initializing, and they keep doing so until an init call ends (attribute assignments, update_state, sow, clone and the like never change the flag); when the method returns or raises, every module reachable from m at that point reports not is_initializing.", "quantifier": "every module graph, every method body (returning or raising)", "why_tests_cant": "All graphs, all exception points.", "anchors": ["nnx/module.py:Module.init", "nnx/module.py:Module.is_initializing"]}
{"id": "C20", "title": "sow accumulates every value, in order", "statement": "Starting without the attribute, after n calls sow(T, name, v1..vn) the attribute is a T whose value is the tuple (v1,...,vn); sow on a non-Variable, a Variable of another type or a non-tuple value raises ValueError and changes nothing.", "quantifier": "every sequence of sow calls, on any names and types, any module", "why_tests_cant": "Histories are unbounded.", "anchors": ["nnx/module.py:Module.sow"]}
{"id": "C21", "title": "A Module can be assigned to only at the trace level that created it", "statement": "Setting an attribute of a Module succeeds only if the current jax trace and the current nnx trace are the ones in force when the Module (or the merge producing it) was created; otherwise TraceContextError is raised and nothing changes - for direct assignment, update_state, sow and mutable leaves alike.", "quantifier": "every nesting of traces, every module, every attribute and value", "why_tests_cant": "All nestings of transformations.", "anchors": ["nnx/module.py:Module._setattr", "nnx/tracers.py:TraceState.is_valid", "nnx/tracers.py:nnx_trace"]}
{"id": "C22", "title": "mutable_state_dict gives read/write views onto exactly the state entries", "statement": "m.mutable_state_dict() has the paths of m.get_state(); reading leaf.value yields what attribute access at that path yields; assigning leaf.value = v is visible through every alias of the owning module and changes no other attribute.", "quantifier": "every module graph, every path, every value", "why_tests_cant": "Frame condition over all graphs.", "anchors": ["nnx/module.py:Module.mutable_state_dict", "nnx/module.py:MutableLeaf"]}
{"id": "C23", "title": "Equal ModuleDefs build equal modules; equal ModuleDefs hash equal", "statement": "If two ModuleDefs obtained from modules compare equal then merging the same state into either gives observably identical modules (up to the is_initializing flag, which equality ignores), and their hashes agree; equality is an equivalence relation.", "quantifier": "all pairs of module graphs and states", "why_tests_cant": "Soundness of the jit cache key over all pairs.", "anchors": ["nnx/module.py:ModuleDef.__eq__", "nnx/module.py:ModuleDef.__hash__", "nnx/module.py:_build_module_recursive"]}
{"id": "C24", "title": "partition is canonical: isomorphic modules give equal ModuleDef and equal State", "statement": "If two modules are observably identical (same classes, statics, node values, sharing), then partition gives equal ModuleDefs and equal States, whatever the insertion order of attributes, object identities or ids; in particular re-partitioning a clone gives the same ModuleDef, so no re-jit.", "quantifier": "all pairs of isomorphic module graphs", "why_tests_cant": "All pairs of graphs and all insertion orders.", "anchors": ["nnx/module.py:_get_module_def", "nnx/module.py:_make_module_def_recursive", "nnx/module.py:_iter_state_recursive"]}
{"id": "C25", "title": "Pure.update_state applies the updates", "statement": "pure.update_state(u) returns a Pure whose state has u's value at every path of u, and the old value elsewhere.", "quantifier": "every Pure and every update", "why_tests_cant": "Over all states. NOTE: false of the code: the old states are merged after the updates, so old values win.", "anchors": ["nnx/module.py:Pure.update_state", "nnx/state.py:State.merge"]}
{"id": "C26", "title": "Pure's get_state/partition/filter/pop_state are the State operations on the merged state", "statement": "For every Pure, get_state is the merge of its states; partition(filters) re-splits that state and keeps the ModuleDef; pop_state(filters) splits it into the popped states and a Pure with the rest, and together they merge back to the same state; none of them changes the original.", "quantifier": "every Pure, every filter list", "why_tests_cant": "Over all states/filters.", "anchors": ["nnx/module.py:Pure.get_state", "nnx/module.py:Pure.partition", "nnx/module.py:Pure.filter", "nnx/module.py:Pure.pop_state"]}
{"id": "C27", "title": "apply can call any nested method reached by '.' or '[]'", "statement": "moduledef.apply(state).a.b[...]...(args) calls the function obtained by following all the accesses in order from the merged module (README).", "quantifier": "every chain of attribute/item accesses", "why_tests_cant": "Access chains are unbounded. NOTE: false of the code: only the last access of the chain is kept, and a method called accessor is never reached.", "anchors": ["nnx/module.py:DelayedAccessor", "nnx/module.py:CallableProxy", "nnx/module.py:ModuleDef.apply"]}
{"id": "C28", "title": "apply is pure", "statement": "module.apply(...)(...) and moduledef.apply(state)(...) run the method on a fresh copy: whatever assignments the method performs on its module, the original module and the input states are unchanged, and the returned module/Pure reflects the assignments.", "quantifier": "every module graph, every sequence of assignments performed by the method", "why_tests_cant": "All method bodies.", "anchors": ["nnx/module.py:Module.apply", "nnx/module.py:ModuleDef.apply"]}
{"id": "C29", "title": "make_rng never derives two keys from the same fold data", "statement": "In any history of context / make_rng / partition / merge / copy in which the streams created get pairwise different base keys and each partitioned context is merged at most once, no two make_rng calls derive their key from the same base key and the same fold-in data string.", "quantifier": "all finite histories, any nesting of forks, any number of calls, any interleaving over the live contexts", "why_tests_cant": "Histories are unbounded; a single reuse silently correlates randomness. (The 32-bit hash after the string encoding is outside the theorem.)", "anchors": ["nnx/contextlib.py:Context.make_rng", "nnx/contextlib.py:Context.partition", "nnx/contextlib.py:ContextDef.merge", "nnx/contextlib.py:_stable_hash"]}
{"id": "C30", "title": "Randomness is reproducible and streams are independent", "statement": "The key returned by make_rng depends only on the stream's base key, its fork path and the number of earlier make_rng/partition calls on that stream, never on other streams or flags; merging the same PureContext again reproduces the same sequence of keys.", "quantifier": "all histories and all interleavings between streams", "why_tests_cant": "Non-interference over all histories.", "anchors": ["nnx/contextlib.py:Context.make_rng", "nnx/contextlib.py:ContextDef.merge"]}
{"id": "C31", "title": "A failing RNG request consumes nothing", "statement": "make_rng on an unknown stream raises ValueError, make_rng or partition from another trace level raises TraceContextError, and in all these cases no counter of any stream changes.", "quantifier": "all contexts, names and trace situations", "why_tests_cant": "All error situations.", "anchors": ["nnx/contextlib.py:Context.make_rng", "nnx/contextlib.py:Context.partition"]}
{"id": "C32", "title": "Context partition/merge preserves streams and flags", "statement": "ctx.partition().merge() has the same stream names with the same base keys and the same flags as ctx; has_rng/has_flag/get_flag agree; each fork starts with count 0 and a path extended by the parent's count, and the parent's count is incremented once per partition.", "quantifier": "every context and history", "why_tests_cant": "All contexts.", "anchors": ["nnx/contextlib.py:Context.partition", "nnx/contextlib.py:ContextDef.merge", "nnx/contextlib.py:Context.get_flag"]}
{"id": "C33", "title": "RNG filters denote sets of stream names", "statement": "to_rng_predicate: None selects nothing, ... everything, a string exactly that stream, a sequence the union, a mapping the union of the filters mapped to True.", "quantifier": "every nested rng filter, every stream name", "why_tests_cant": "Unbounded nesting.", "anchors": ["nnx/contextlib.py:to_rng_predicate"]}
{"id": "C34", "title": "Ids are unique in every thread schedule and under copying", "statement": "No two calls of ids.uuid() - from any threads, in any interleaving - nor any copy/deepcopy of an id ever return equal ids.", "quantifier": "every number of threads, every schedule, every history of calls and copies", "why_tests_cant": "Schedules cannot be enumerated by tests.", "anchors": ["nnx/ids.py:UUIDManager", "nnx/ids.py:UUID"]}
{"id": "C35", "title": "The nnx trace stack is restored on every exit", "statement": "After any nesting of nnx_trace blocks, each exiting normally or by exception, the current nnx trace is what it was before; inside a block it is the block's trace.", "quantifier": "every nesting depth and every exception point", "why_tests_cant": "Crash points are unbounded.", "anchors": ["nnx/tracers.py:nnx_trace", "nnx/tracers.py:current_nnx_trace"]}
{"id": "C36", "title": "Wrapping a container locks its kind", "statement": "T(c) for a container c succeeds iff the result would have exactly c's class and metadata, and then equals c; otherwise ValueError. T(T(x)) = T(x) for plain metadata.", "quantifier": "every container class, value and metadata", "why_tests_cant": "All containers.", "anchors": ["nnx/containers.py:ContainerMetaclass.__call__", "nnx/containers.py:Container.is_equivalent"]}
{"id": "C37", "title": "Container.replace changes exactly the named fields", "statement": "c.replace(**kw) has c's class, kw's values at kw's keys and c's elsewhere; unknown keys raise ValueError; replacing the value by a container uses that container's value and requires equal class and metadata; c itself is unchanged.", "quantifier": "every container and keyword set", "why_tests_cant": "All containers.", "anchors": ["nnx/containers.py:Container.replace"]}
{"id": "C38", "title": "Containers are lossless pytrees with exactly one child; Static has none", "statement": "Flattening a Node gives exactly its value as the only child and unflattening restores an equal container, with new children replacing only the value; Static flattens to no leaves and tree_map leaves it unchanged; copy() equals the original; == is an equivalence relation and c1 == c2 iff equal class, value and metadata.", "quantifier": "every container", "why_tests_cant": "Round-trip law over all containers.", "anchors": ["nnx/containers.py:NodeBase.__init_subclass__", "nnx/containers.py:Static", "nnx/containers.py:Container.copy", "nnx/containers.py:Container.__eq__"]}
{"id": "C39", "title": "Initializer metadata reaches the variable", "statement": "T(with_metadata(init, **md)(...)) has the initializer's value, and every key of md with md's value (overriding constructor arguments such as sharding).", "quantifier": "every initializer, metadata and constructor metadata", "why_tests_cant": "All metadata sets.", "anchors": ["nnx/containers.py:with_metadata", "nnx/containers.py:Container.__init__", "nnx/containers.py:Variable.__init__"]}
{"id": "C40", "title": "Pytree objects are lossless JAX pytrees with order-independent structure", "statement": "Flatten then unflatten gives an object with the same fields; leaves are exactly the node fields in sorted field order; the structure does not depend on the order in which __init__ assigned the fields; tree_map changes node fields only.", "quantifier": "every Pytree object, every assignment order", "why_tests_cant": "All objects and orders.", "anchors": ["nnx/pytreelib.py:Pytree._pytree__flatten", "nnx/pytreelib.py:Pytree._pytree__unflatten", "nnx/pytreelib.py:PytreeMeta.call"]}
{"id": "C41", "title": "An initialized immutable Pytree cannot be changed by assignment, and no Pytree gains fields after init", "statement": "After construction every attribute assignment on an immutable Pytree raises AttributeError and changes nothing; on a mutable one, assignment to a new name raises AttributeError and assignment to an existing name changes only it.", "quantifier": "every Pytree and every history of assignments and replaces", "why_tests_cant": "Invariant over histories.", "anchors": ["nnx/pytreelib.py:Pytree._setattr", "nnx/pytreelib.py:_mutable", "nnx/pytreelib.py:_initializing"]}
{"id": "C42", "title": "Pytree.replace is non-destructive and exact", "statement": "p.replace(**kw) leaves every existing object unchanged, also when it raises; it returns a new object of the same class that is again sealed against assignment, with exactly kw's fields replaced (a container field keeps its kind and metadata); unknown names raise (ValueError, or TypeError for a dataclass, or AttributeError for a mutable class). For dataclasses: when the fields hold containers where and only where the declarations ask for them.", "quantifier": "every Pytree, ordinary, dataclass or frozen dataclass, and every keyword set", "why_tests_cant": "All objects.", "anchors": ["nnx/pytreelib.py:Pytree.replace"]}
{"id": "C43", "title": "flax state-dict round trip", "statement": "from_state_dict(p, to_state_dict(p)) = p; to_state_dict has exactly the node fields; a missing node field or an extra key raises ValueError; restoring changes node fields only.", "quantifier": "every Pytree and state dict, nested", "why_tests_cant": "All objects and dicts.", "anchors": ["nnx/pytreelib.py:Pytree._to_flax_state_dict", "nnx/pytreelib.py:Pytree._from_flax_state_dict"]}
{"id": "C44", "title": "logical_to_mesh_axes never assigns one mesh axis to two dimensions", "statement": "In the returned PartitionSpec each mesh axis name occurs in at most one dimension (given rules whose tuples do not repeat an axis), the length equals the number of dimensions, and repeated logical names raise ValueError.", "quantifier": "every list of dimension names, every rule list", "why_tests_cant": "All rule lists.", "anchors": ["nnx/spmd.py:_logical_to_mesh_axes", "nnx/spmd.py:_mesh_assignment_free", "nnx/spmd.py:logical_to_mesh_axes"]}
{"id": "C45", "title": "logical_to_mesh_axes applies rules in priority order", "statement": "A dimension gets the mesh axes of the first rule for its name whose mesh axes are not already taken by earlier-applied rules; a rule mapping to None pins the dimension as unsharded; a dimension with no applicable rule is None.", "quantifier": "every list of dimension names, every rule list", "why_tests_cant": "All rule lists.", "anchors": ["nnx/spmd.py:_logical_to_mesh_axes"]}
{"id": "C46", "title": "add_axis and remove_axis are inverse on sharding metadata", "statement": "remove_axis(add_axis(state, i, params), i, params) = state for every state; add_axis(remove_axis(...)) restores the state; only sharding metadata changes.", "quantifier": "every State, index and partition name", "why_tests_cant": "All states/indices. NOTE: false of the code when the sharding is shorter than the index (padding is not undone) and for negative indices.", "anchors": ["nnx/spmd.py:add_axis", "nnx/spmd.py:remove_axis"]}
{"id": "C47", "title": "logical_axis_rules restores the previous rules on every exit", "statement": "After any nesting of logical_axis_rules blocks, exiting normally or by exception, the rules are what they were before; inside, the innermost rules are in force.", "quantifier": "every nesting, every exception point", "why_tests_cant": "Crash points are unbounded.", "anchors": ["nnx/spmd.py:logical_axis_rules"]}
{"id": "C48", "title": "with_logical_constraint decision table", "statement": "No rules or no spec: the value is returned unconstrained; with AXIS_IS_UNSHARDED unmatched axes become None; with RAISE_ERROR an unmatched axis raises; with NO_CONSTRAINT an unmatched axis returns the value unconstrained; without mesh nothing is constrained; never another outcome.", "quantifier": "every spec, rules, mesh presence and fallback", "why_tests_cant": "All combinations.", "anchors": ["nnx/spmd.py:with_logical_constraint", "nnx/spmd.py:_with_sharding_constraint_one_fallback", "nnx/spmd.py:_with_sharding_constraint"]}
{"id": "C49", "title": "nnx.jit has the same effect as calling the function directly", "statement": "For a function that reads and assigns node attributes of its module (at any paths, values depending on what it reads), nnx.jit(f)(m) returns the same output as f(m) and leaves m observably in the same state as f(m) would.", "quantifier": "every module graph, every such function", "why_tests_cant": "All programs and graphs.", "anchors": ["nnx/transforms.py:JitTransform"]}
{"id": "C50", "title": "Stateless jit leaves the module alone", "statement": "With stateful=False the module passed to nnx.jit(f) is unchanged whatever f assigns, and the output is the same as in stateful mode.", "quantifier": "every module graph, every function", "why_tests_cant": "All programs.", "anchors": ["nnx/transforms.py:JitTransform"]}
{"id": "C51", "title": "nnx.grad differentiates exactly the selected state", "statement": "The State passed for differentiation consists of exactly the entries matching wrt; all other entries are passed as non-differentiated; the merged module seen by the function is observably the original one; the gradient State has exactly the selected paths; state updates made by the function are written back.", "quantifier": "every module graph, every wrt filter, every function", "why_tests_cant": "All graphs and filters.", "anchors": ["nnx/transforms.py:GradTransform"]}
{"id": "C52", "title": "nnx.scan is the sequential loop over layers", "statement": "Scan over a module whose axes-state has length n gives the same carry, outputs, and final states as running the body n times in order on the i-th slice of the axes states, the shared broadcast state, and the threaded carry state - including when the first iteration creates new carry state.", "quantifier": "every length, every body, every initial state", "why_tests_cant": "Unbounded lengths and bodies.", "anchors": ["nnx/transforms.py:scan_apply"]}
{"id": "C53", "title": "scan with reverse=True is the loop in reverse order", "statement": "With reverse=True the loop runs from the last slice to the first.", "quantifier": "every length, every body", "why_tests_cant": "Unbounded. NOTE: false of the code when the body creates new carry state: the first slice is processed first.", "anchors": ["nnx/transforms.py:scan_apply"]}
{"id": "C54", "title": "scan writes back new variables of every collection", "statement": "Variables created by the body are present in the module after the scan, whichever collection they belong to.", "quantifier": "every body and filters", "why_tests_cant": "All bodies. NOTE: false for broadcast variables: the difference is taken the wrong way round.", "anchors": ["nnx/transforms.py:scan_apply"]}
{"id": "C55", "title": "scan splits exactly the selected RNG streams", "statement": "In scan, each stream selected by split_rngs gives every iteration its own key (the i-th split) and every other stream gives all iterations the same key; the names seen inside equal the names outside.", "quantifier": "every context, filter and length", "why_tests_cant": "All contexts/lengths.", "anchors": ["nnx/transforms.py:scan_apply", "nnx/transforms.py:scan_init"]}
{"id": "C56", "title": "remat has the same effect as a direct call, and static_argnums keep pointing to the same arguments", "statement": "remat(f)(m, ...) returns the same output and leaves m in the same state as f(m, ...); a static argument index (negative or not) given by the user denotes the same argument after the two internal arguments are prepended.", "quantifier": "every module, function, argument list and index", "why_tests_cant": "All programs/indices.", "anchors": ["nnx/transforms.py:remat_apply", "nnx/transforms.py:RematOptions"]}
{"id": "C57", "title": "first_from returns the first specified setting", "statement": "first_from(*args) is the first non-None argument (False counts as specified), raising ValueError iff all are None; so call argument overrides attribute overrides context flag in Dropout and BatchNorm.", "quantifier": "every argument list", "why_tests_cant": "All lists.", "anchors": ["nnx/module.py:first_from", "nnx/nn/stochastic.py:Dropout", "nnx/nn/normalization.py:BatchNorm"]}
{"id": "C58", "title": "Dropout is the identity when deterministic or rate 0 and otherwise keeps-or-zeroes each element", "statement": "Deterministic or rate 0: output = input and no key is consumed; rate 1: all zeros and no key consumed; otherwise exactly one key is consumed from the configured stream, each output element is either 0 or input/(1-rate), and elements that differ only along broadcast_dims share the decision; the error cases raise.", "quantifier": "all inputs, shapes, rates, broadcast dims and masks", "why_tests_cant": "All inputs.", "anchors": ["nnx/nn/stochastic.py:Dropout"]}
{"id": "C59", "title": "BatchNorm running statistics are the exponential moving average and only change in training mode", "statement": "With use_running_average the module is unchanged and the stored statistics are used; otherwise after n calls the running mean is m^n*mu0 + (1-m)*sum m^(n-1-i)*mu_i (same for variance), stays within the range of its inputs for momentum in [0,1], and the batch's own statistics are used for normalization. An input whose number of features differs from the module's is rejected and leaves the module as it was, unless one of the two numbers is 1 and the module is in training: then the running statistics broadcast.", "quantifier": "every number of calls, every sequence of batches (exact arithmetic)", "why_tests_cant": "Unbounded histories. Floating point is outside the model.", "anchors": ["nnx/nn/normalization.py:BatchNorm.__call__", "nnx/nn/normalization.py:_compute_stats"]}
{"id": "C60", "title": "The variance formula is the variance, and is never negative", "statement": "E[x^2]-E[x]^2 equals E[(x-E[x])^2] and is non-negative in exact arithmetic, so the clipping never alters an exact result, and the returned variance is non-negative always; the normalised output has mean zero.", "quantifier": "every non-empty sample", "why_tests_cant": "All inputs.", "anchors": ["nnx/nn/normalization.py:_compute_stats", "nnx/nn/normalization.py:_normalize"]}
{"id": "C61", "title": "Axis canonicalisation and reduction axes", "statement": "_canonicalize_axes maps negative axes to rank+axis and removes duplicates; BatchNorm's reduction axes together with the feature axes cover every axis exactly once; the reshape targets have the right shape.", "quantifier": "every rank and axis list; for the cover, axis lists within [-rank, rank)", "why_tests_cant": "All ranks.", "anchors": ["nnx/nn/normalization.py:_canonicalize_axes", "nnx/nn/normalization.py:_normalize"]}
{"id": "C62", "title": "Conv padding is canonicalised to one pair per spatial dimension or rejected", "statement": "canonicalize_padding returns strings unchanged, and otherwise exactly rank (low, high) pairs with ints expanded to both sides, or raises ValueError; conv dimension numbers are permutations of 0..ndim-1.", "quantifier": "every padding spec and rank", "why_tests_cant": "All ranks.", "anchors": ["nnx/nn/linear.py:canonicalize_padding", "nnx/nn/linear.py:_conv_dimension_numbers"]}
{"id": "C63", "title": "CAUSAL and CIRCULAR convolution keep length; CAUSAL never looks ahead", "statement": "With input dilation 1 (the default): with CAUSAL padding and stride 1 output length equals input length and output t depends only on inputs at times <= t, for every kernel size and dilation; with CIRCULAR padding and stride 1 the output length equals the input length in each spatial dimension and the convolution commutes with cyclic shifts; CAUSAL with a kernel that is not 1-dimensional raises ValueError.", "quantifier": "every length, kernel size, dilation", "why_tests_cant": "All sizes.", "anchors": ["nnx/nn/linear.py:Conv.__call__"]}
{"id": "C64", "title": "Conv restores the caller's batch dimensions", "statement": "For inputs with any number of leading batch dimensions (including none) the output has the same batch dimensions, every output entry is the convolution formula over its own batch entry, and the output for a batch entry is the output for that entry given alone.", "quantifier": "every number and size of batch dimensions", "why_tests_cant": "All shapes.", "anchors": ["nnx/nn/linear.py:Conv.__call__"]}
{"id": "C65", "title": "dtype promotion is uniform", "statement": "promote_dtype returns one result per argument, None for None, all others in the single canonical dtype; with inexact=True the result is inexact or ValueError is raised; an explicit dtype is used unmodified.", "quantifier": "every argument list and dtype lattice", "why_tests_cant": "All lists.", "anchors": ["nnx/nn/dtypes.py:canonicalize_dtype", "nnx/nn/dtypes.py:promote_dtype"]}
{"id": "C66", "title": "Sequence applies its layers in order, threading outputs and ctx", "statement": "Sequence(fs)(*args) is the composition of the fs: a tuple output becomes positional arguments, a dict output keyword arguments, anything else a single argument; ctx is passed to precisely those layers that accept it; a non-callable raises TypeError.", "quantifier": "every list of layers and arguments", "why_tests_cant": "Unbounded lengths.", "anchors": ["nnx/helpers.py:Sequence.__call__", "nnx/helpers.py:has_keyword_arg"]}
{"id": "C67", "title": "Sequence and Dict are faithful containers", "statement": "len(Sequence(xs)) = len(xs), indexing and iterating give back xs; a Dict iterates over exactly the keys it was given.", "quantifier": "every list / mapping", "why_tests_cant": "All sizes. NOTE: false of the code: an empty Sequence has length 1, and Dict also lists the internal '_module__state' key.", "anchors": ["nnx/helpers.py:Sequence", "nnx/helpers.py:Dict"]}
{"id": "C68", "title": "TrainState.apply_gradients steps the optimiser exactly once and touches nothing else", "statement": "After n apply_gradients calls, step = step0 + n, params/opt_state are the n-fold optimiser iteration, every other field is unchanged, and every earlier TrainState is unchanged.", "quantifier": "every optimiser, every gradient sequence", "why_tests_cant": "Unbounded histories.", "anchors": ["nnx/helpers.py:TrainState.apply_gradients"]}
{"id": "C69", "title": "Dataclass field specifiers wrap their field in the declared container", "statement": "After constructing a dataclass Module/Pytree, each field declared with node_field/static_field/var_field/param_field holds a container of the declared class with the passed value, plain fields hold the value as is, and passing a container of another kind raises.", "quantifier": "every class declaration and argument values", "why_tests_cant": "All declarations.", "anchors": ["nnx/module.py:ModuleMeta._meta_call", "nnx/pytreelib.py:PytreeMeta.call", "nnx/dataclasses.py:var_field"]}
{"id": "C70", "title": "repr terminates on cyclic modules and leaves the printer state clean", "statement": "repr(m) terminates for every module graph, expands every module at most once, and afterwards the indentation stack and seen set are as before. Its text has a line for every submodule and every public attribute that is not a node, in attribute order, indented by two spaces per level; a module printed earlier is abbreviated.", "quantifier": "every module graph", "why_tests_cant": "All graphs.", "anchors": ["nnx/reprlib.py:get_repr", "nnx/reprlib.py:add_indent", "nnx/module.py:Module.__nnx_repr__"]}
{"id": "C71", "title": "Every world a program can reach satisfies the structural invariants", "statement": "After any history of API calls (creating, assigning, linking, deleting, cloning, update_state, pop_state, sow, init, entering/leaving traces; calls that raise included), ids of Modules are pairwise distinct and below the id counter, references are not dangling, stored containers are well formed; each Module keeps its id, class and creation trace forever.", "quantifier": "every finite history of API calls starting from no Modules", "why_tests_cant": "Unbounded histories over arbitrary graphs.", "anchors": ["nnx/module.py:Module", "nnx/module.py:ModuleState", "nnx/ids.py:UUIDManager"]}
{"id": "C72", "title": "Pytree.replace keeps the fields it was not asked to replace as they are", "statement": "After q = p.replace(**kw), every field not named in kw holds in q what it holds in p, including the container (kind and metadata) it is stored in.", "quantifier": "every Pytree, ordinary or dataclass, and every keyword set", "why_tests_cant": "All objects; false for dataclasses whose plain fields hold containers, which no test exercises.", "anchors": ["nnx/pytreelib.py:Pytree.replace", "nnx/dataclasses.py:field"]}
{"id": "C73", "title": "get_partition_spec gives one spec per leaf", "statement": "In get_partition_spec(state) every path of the state is present; a Node with a non-empty sharding gives exactly that sharding as PartitionSpec, any other array (boxed or not) the empty PartitionSpec, and a value without shape None.", "quantifier": "every State", "why_tests_cant": "All states.", "anchors": ["nnx/spmd.py:get_partition_spec"]}
{"id": "C74", "title": "with_logical_partitioning constrains at initialisation and at every read alike", "statement": "An initializer wrapped by with_logical_partitioning returns its value under the constraint given by its sharding, rules and mesh; each later read of the attribute applies the same constraint to the stored value; without any mesh or without rules, both are the plain value.", "quantifier": "every sharding, rules, mesh and initializer result", "why_tests_cant": "All combinations.", "anchors": ["nnx/spmd.py:with_logical_partitioning"]}
{"id": "C75", "title": "The compilation cache of nnx.jit is transparent", "statement": "Calling a jitted function with a module whose ModuleDef equals that of an earlier call (so the compiled function is reused) has the same output and effect as compiling it anew for this module.", "quantifier": "every module graph, every function, every history of earlier calls", "why_tests_cant": "The reuse depends on the equality of ModuleDefs over all histories of calls.", "anchors": ["nnx/transforms.py:JitTransform", "nnx/module.py:ModuleDef"]}
{"id": "C76", "title": "LayerNorm normalises each position over its features", "statement": "LayerNorm gives (x - mean) * rsqrt(var + epsilon) * scale + bias, with mean and variance taken over the feature axis at each position separately, whatever the batch dimensions.", "quantifier": "every shape, input and parameter (exact arithmetic)", "why_tests_cant": "All shapes and inputs.", "anchors": ["nnx/nn/normalization.py:LayerNorm", "nnx/nn/normalization.py:_normalize", "nnx/nn/normalization.py:_compute_stats"]}
{"id": "C77", "title": "Linear computes the affine map of the last axis", "statement": "On inputs with any batch dimensions Linear gives sum_i x[b,i]*kernel[i,j] + bias[j]; without bias it is linear; inputs whose last dimension is not in_features raise.", "quantifier": "every batch shape, input and parameter (exact arithmetic)", "why_tests_cant": "All shapes and inputs.", "anchors": ["nnx/nn/linear.py:Linear.__call__"]}
{"id": "C78", "title": "Embed looks up rows, attend gives inner products", "statement": "For integer inputs in range, of any shape, Embed returns at each position the row of the table; other dtypes raise ValueError; attend(query) is the inner product with every row, so on an orthonormal table attend(embed(i)) is the indicator of i.", "quantifier": "every table, input shape and query", "why_tests_cant": "All shapes and inputs.", "anchors": ["nnx/nn/linear.py:Embed"]}
{"id": "C79", "title": "scan with partition_name hides and restores the partition name", "statement": "With scan_metadata partition_name=N, the body sees the sharding of every scanned variable without N at the variable's axis, and after the scan every scanned variable has the sharding it had before, with N at its axis; otherwise the scan does exactly what it does on a module whose shardings never mentioned N. If the sharding of a scanned variable does not have N at its axis the scan raises and nothing is changed.", "quantifier": "every module (aliases included), filters, axes, length, metadata, body that creates no new variables", "why_tests_cant": "All modules, bodies and lengths: the removal before the loop and the insertion in every step must cancel for every axis and sharding.", "anchors": ["nnx/transforms.py:scan_apply", "nnx/spmd.py:add_axis", "nnx/spmd.py:remove_axis"]}
{"id": "C80", "title": "nnx.Scan's constructor stacks one construction per slice", "statement": "Constructing nnx.Scan(M, variable_axes=..., length=n, split_rngs=...)(*args, ctx=ctx) gives the same module as constructing M n times, the i-th time with the i-th split of every selected rng stream and the unchanged key of every other stream, and stacking: variables of the variable_axes collections hold the n values stacked along their axis (with the partition name inserted in their sharding, if there is one), all other variables hold the value they had in every construction, the structure is that of one construction, and the result belongs to the trace of the caller. Without a length, or if a variable outside variable_axes differs between slices, the construction raises ValueError; an exception of the constructor is propagated.", "quantifier": "every constructor and its effects on the world, every context, length, filters, axes, rng filters and metadata, and every module graph the constructor makes", "why_tests_cant": "Tests construct one or two layers with two streams and look at shapes; they cannot check every graph, filter combination, sharding and assignment of keys to slices.", "anchors": ["nnx/transforms.py: scan_init, Scan.__init__", "nnx/spmd.py: add_axis"]}
{"id": "C81", "title": "nnx.scan on an __init__ method leaves the module stacked", "statement": "Decorating the __init__ method of a module class with nnx.scan(variable_axes=..., length=n, split_rngs=...), without a partition name, leaves the new module as if the method had run once per slice, with that slice's rng keys, and the values had been stacked: variables of the variable_axes collections hold the n values stacked along their axis, all others their common value, the structure (names, sharing, static fields, submodules) is that of one run, and modules not reachable from the new module are as after one run. With a partition name, and a stacked variable that has a sharding, the decorated method raises instead of naming the new axis. An exception of the method, a missing length, and an unstacked variable whose value depends on the slice raise.", "quantifier": "every __init__ method and its effects on the world, every context, length, filters, axes and rng filters, and every module graph the method makes", "why_tests_cant": "A test decorates one __init__ with one Linear in it and looks at a shape; it cannot check every module graph, shared submodule, rng stream and collection, nor that every sharded variable makes the decorated method raise.", "anchors": ["nnx/transforms.py: scan (init_wrapper), scan_init", "nnx/module.py: Module.update_state"]}
{"id": "C82", "title": "Observationally equal modules are interchangeable", "statement": "Two modules with the same observable graph (same classes, attributes, sharing and values, whatever their identities, ids and creation history), in the same or in different processes, behave the same: any function that reads, assigns, creates submodules, compares identities, calls get_state or raises returns the same result or raises the same exception for both, and leaves them with the same observable graph. In particular what partition and merge make of a module, anywhere, behaves as the module does.", "quantifier": "every pair of well-formed module graphs with a correspondence, every function on modules (any number of reads, writes, submodule creations, identity tests and exceptions), every world", "why_tests_cant": "A test compares one copied module and one method; interchangeability is a congruence over all graphs and all programs.", "anchors": ["nnx/module.py: Module.partition, ModuleDef.merge, ModuleMeta.__call__, Module.__setattr__, Module.get_state"]}
{"id": "C83", "title": "A scan over stacked layers is a loop over the layers", "statement": "Construct n layers one by one, each with the rng keys of its slice, or let nnx.Scan construct one module with their stacked variables. Calling the scanned module (nnx.scan over it, no partition name, no variables in the carry collection) returns the same carry and outputs as calling layer 0, layer 1, ..., layer n-1 one after the other with the same body, contexts and slices of the argument, and after the call each variable of the scanned module holds the stacked values of that variable in the layers after their calls (broadcast variables keep their value).", "quantifier": "every layer class (module graph with sharing), body, number of layers, context, axes, filters, and arrays for which indexing undoes stacking", "why_tests_cant": "A test compares one stack of Linear layers with one python loop for one length; it does not settle every module graph, body, collection and length.", "anchors": ["nnx/transforms.py: scan_init, scan_apply", "nnx/module.py: Module.update_state, ModuleDef.merge"]}
{"id": "C84", "title": "logical_to_mesh and logical_to_mesh_sharding map trees of specs leaf by leaf", "statement": "For every tree of logical PartitionSpecs: logical_to_mesh raises ValueError exactly if some spec in the tree repeats a name, and else returns a tree of the same structure in which each spec is replaced by its layout under the rules (those given, else those in force) and None stays None. If no rule names a mesh axis twice, logical_to_mesh_sharding returns exactly if in addition the mesh has every axis of the layouts, and each leaf is then the sharding with the given mesh and that layout; else it raises ValueError. It never fails because a layout uses a mesh axis twice.", "quantifier": "all trees of logical specs, rules (given or in force), meshes", "why_tests_cant": "Trees, rules and meshes are unbounded, and a failing leaf must be found anywhere in the tree", "anchors": ["nnx/spmd.py:logical_to_mesh", "nnx/spmd.py:logical_to_mesh_sharding", "nnx/spmd.py:logical_to_mesh_axes"]}
{"id": "C85", "title": "in_axes and out_axes of a scan are applied array by array", "statement": "The argument of a scanned function is a tree of arrays, and in_axes a prefix of that tree with an axis at each of its leaves; out_axes is the same for the output. The scan is then the loop whose iteration i gets the tree of the slices i of the argument's arrays, each along the axis in_axes has for it (an argument without arrays is passed unchanged to every iteration), and the returned output is the tree of the iterations' outputs with each array stacked along the axis out_axes has for it; with reverse=True (bodies that create no variables) the iterations run from the last slice to the first and output i is still at position i. If in_axes does not fit the argument, an array lacks its axis, or the arrays, the scanned variables and length have no common length, ValueError is raised and nothing changes. If out_axes does not fit the outputs, ValueError is raised and the module is unchanged although all iterations ran.", "quantifier": "every tree of arguments and outputs, every prefix tree of axes, every module graph, body, length, context", "why_tests_cant": "Trees, prefixes, axes and lengths are unbounded; tests use a single array with axis 0.", "anchors": ["nnx/transforms.py:scan_apply", "nnx/transforms.py:tree_map_upto_left", "nnx/transforms.py:ScanOptions"]}
{"id": "C86", "title": "Constructing layers draws one key per parameter, in order, and nothing else", "statement": "Every array parameter of a Linear, Conv, Embed, BatchNorm or LayerNorm is what its initialiser returns for the next key of the context's stream 'params' and the documented shape: (in, out) and (out,) for Linear, kernel_size + (in // groups, out) and (out,) for Conv, (n, d) for Embed, (n,) for scale and bias; the kernel (the scale) comes before the bias, a parameter that is switched off is None and draws no key, and the statistics of a BatchNorm start as 0 and 1. So constructing a whole model advances that stream by its number of parameters and changes no other stream or context, two contexts whose streams 'params' are in the same state give the same model, and, if hashing has no collisions, no two parameters of all models ever built share a key, nor share one with any other caller of make_rng. An int as kernel_size of a Conv raises TypeError; without a stream 'params' a layer with parameters raises ValueError, with a context of another trace TraceContextError; in these cases no key is drawn.", "quantifier": "every architecture (sequence of layers with any sizes, options and initialisers), every history of calls on contexts", "why_tests_cant": "The architectures, sizes and histories are unbounded; tests look at single layers and check shapes.", "anchors": ["nnx/nn/linear.py:Linear.__init__", "nnx/nn/linear.py:Conv.__init__", "nnx/nn/linear.py:Embed.__init__", "nnx/nn/normalization.py:BatchNorm.__init__", "nnx/nn/normalization.py:LayerNorm.__init__", "nnx/contextlib.py:Context.make_rng"]}
{"id": "C87", "title": "A new layer takes every input of the shape it was made for", "statement": "With initialisers that return arrays of the requested shape: Linear(m, n) maps every array of shape B + (m,) to B + (n,), each output being the inner product with a kernel column plus bias; Embed(n, d) appends a dimension of size d, the row of the embedding; Conv whose groups divide both numbers of features computes the documented grouped convolution for every input with its number of spatial dimensions and features; LayerNorm(n) normalizes every array whose feature axis has size n; and after any history of calls of a new BatchNorm(n), evaluation normalizes with the exponential moving averages of the statistics of the training batches, started from mean 0 and variance 1, scaled and shifted by the initial parameters.", "quantifier": "every size, option, initialiser and input shape; every history of calls of a BatchNorm", "why_tests_cant": "Sizes, shapes and histories are unbounded; tests call a layer on one array.", "anchors": ["nnx/nn/linear.py:Linear", "nnx/nn/linear.py:Conv", "nnx/nn/linear.py:Embed", "nnx/nn/normalization.py:BatchNorm", "nnx/nn/normalization.py:LayerNorm"]}
{"id": "C88", "title": "Normalization across devices uses the statistics of all devices", "statement": "For every number of devices, inputs of one shape, and axis_index_groups, a training call of BatchNorm with axis_name moves the running statistics of each device towards the mean and variance of the entries of all devices of its group together, and normalizes with those; LayerNorm with axis_name likewise. Data-parallel training of replicas gives exactly the running statistics and outputs of one BatchNorm on the whole batch. Replicas that start equal stay equal after any sequence of calls, including failing ones, and their statistics are the exponential moving averages of the whole-batch statistics of the training steps. In evaluation mode devices do not communicate. If all axes are reduced, LayerNorm with axis_name raises ValueError.", "quantifier": "all device counts, groups, input shapes and entries, momentum, parameters, modes, and all sequences of steps", "why_tests_cant": "tests run on one or a few devices with a few batches; the law must hold for every number of devices, every partition in groups and every history", "anchors": ["nnx/nn/normalization.py:_compute_stats", "nnx/nn/normalization.py:BatchNorm.__call__", "nnx/nn/normalization.py:LayerNorm.__call__"]}
{"id": "C89", "title": "Keys drawn in scans never repeat when every scan splits every stream", "statement": "In any history of context / make_rng / partition / merge / copy and scans (of functions or constructors, nested or repeated in any way, each partitioned context being merged at most once or handed to the iterations of one scan), two make_rng calls return the same key only if they belong to different iterations of a scan that did not split the stream. If every scan splits every stream, no key is returned twice: not by two iterations, not by nested or successive scans, not inside and outside.", "quantifier": "all finite histories, any nesting of scans and forks, any lengths, any split_rngs filter, any interleaving", "why_tests_cant": "Histories are unbounded, and a repeated key silently correlates the randomness of layers. (Collisions of the 32-bit hash and of the key derivation itself are outside the theorem.)", "anchors": ["nnx/contextlib.py:Context.make_rng, Context.partition, ContextDef.merge", "nnx/transforms.py:scan_apply, scan_init"]}
{"id": "C90", "title": "Nested transforms compose", "statement": "A function that calls other functions on the Modules it holds through jit (stateful or not), remat, grad and scan, nested to any depth, returns or raises what it would return or raise if these functions were called directly (a stateless jit's effect being dropped, and grad being the gradient, with respect to the selected entries, of the loss of the direct call), provided that the effects of functions called through stateful transforms are writes of nodes. If it returns, every Module reachable from its argument has the same graph and is at the same place as after the direct calls. In any case other Modules are untouched and the traces are restored. So stateful jit and remat can be added or left out anywhere, also inside functions that are differentiated.", "quantifier": "every module graph, every function built from attribute operations, get_state, update_state, clone and nested calls, every filter, every jax.grad that looks at its function only at states of the right kind", "why_tests_cant": "Nesting depth, functions and graphs are unbounded; tests nest one transform in another on one model.", "anchors": ["nnx/transforms.py:JitTransform.__call__", "nnx/transforms.py:GradTransform.__call__", "nnx/transforms.py:remat_apply", "nnx/tracers.py:nnx_trace"]}
{"id": "C91", "title": "scan composes with the other transforms", "statement": "A scan of a function that itself calls functions through jit, remat, grad or scan returns or raises what the scan of the function without jit, remat and grad returns or raises, and leaves the same module graph, provided the effects of functions called through stateful transforms are node writes in every call that the scan makes. And a scan inside jit or remat returns or raises what the scan returns or raises, and leaves the same module graph (with stateful=False, the old one). So nnx.scan(nnx.remat(f)), nnx.jit(nnx.scan(f)) and nnx.jit(nnx.scan(nnx.remat(f))) mean nnx.scan(f).", "quantifier": "every module graph, every scan options, every carry, argument and context, every function built from attribute operations and nested calls, every array operations and key splitting", "why_tests_cant": "Options, graphs, lengths, functions and nestings are unbounded; tests try one remat-scan on one model.", "anchors": ["nnx/transforms.py:scan_apply", "nnx/transforms.py:remat_apply", "nnx/transforms.py:JitTransform.__call__"]}
{"id": "C92", "title": "Functions with transforms do what they would do with direct calls and loops", "statement": "If a function that uses jit, remat, grad and scan on the Modules it holds, nested in any way, has a run in which every jit and remat is a direct call (a stateless jit's effect being dropped, a kept effect being node writes), every grad is the gradient of the loss of the direct call, and every scan is a Python loop over the slices followed by stacking the axes variables (backwards for reverse=True, without new variables then; an exception of an iteration leaving the Module as it was), then the function with its transforms returns or raises the same as this run. If it returns, every reachable Module has the same graph as after this run and is at the same place; every other Module, and the traces, are unchanged. In particular the run without transforms is determined.", "quantifier": "all functions written with attribute reads and writes, deletions, identity tests, construction, get_state, update_state, clone, raising, jit, remat, grad and scan, nested to any depth and with control flow depending on what they see; all module graphs with sharing and cycles; all wrt filters, variable axes, lengths and carries; all recursion limits that suffice to read the scanned module", "why_tests_cant": "nesting depth, loop lengths and module graphs are unbounded, and every combination of transforms has its own way of copying module state in and out", "anchors": ["nnx/transforms.py: jit, JIT, grad, Grad, remat, Remat, scan, scan_apply, Scan", "nnx/module.py: Module.partition, Module.update_state"]}
{"id": "C93", "title": "jax.tree_map replaces exactly the leaves of nnx trees, at every depth", "statement": "For any nesting of containers, Pytrees, tuples, dicts and None, and for States of such values: tree_flatten_with_path returns exactly the leaves, each once, with its path; tree_unflatten of what tree_flatten returned is the same tree; jax.tree_map(f, tree, *rest) returns the tree with each leaf replaced by what f returns for it and for the parts of the other trees at the same path, and keeps everything else: Variables keep their class and metadata, Static values stay, Pytrees keep their class, fields and static values, States keep their paths. It raises ValueError if another tree does not have the structure of the first one (including metadata and static values), and otherwise only what f raises. The tree structure is kept, and maps compose, if f returns leaves and arrays for arrays.", "quantifier": "all trees of any depth whose containers and Pytrees were made by their constructors, all numbers of further trees, all functions f that do not put a container into a container", "why_tests_cant": "tree maps are recursive over arbitrary nesting; tests use a few small trees", "anchors": ["nnx/containers.py:NodeBase", "nnx/containers.py:_node_flatten", "nnx/containers.py:Static", "nnx/pytreelib.py:Pytree._pytree__flatten", "nnx/pytreelib.py:Pytree._pytree__unflatten", "nnx/state.py:_state_flatten_with_keys", "nnx/state.py:_state_unflatten"]}
{"id": "C94", "title": "The training step of the documentation updates exactly the parameters", "statement": "Let `train_step(model)` take `grads = nnx.grad(loss_fn, wrt)(model)` and then call `model.update_state(jax.tree_map(step, model.filter(wrt), grads))`, and be called directly or through `nnx.jit` or `nnx.remat`. If `loss_fn(model)`, called directly, returns and writes only nodes, then afterwards the model has the structure and state that this direct call leaves, except that every leaf of the entries that match `wrt` is replaced by what `step` returns for it and the leaf of the gradient at the same place, the gradient being that of the loss at the parameters from before the call. A parameter that `loss_fn` does not change becomes `step(value, gradient)` with the same Variable class and metadata. No other Module changes. An exception of `loss_fn` is raised by the step, and if the gradient does not fit the parameters left by `loss_fn` the step raises ValueError.", "quantifier": "every model graph (with sharing and cycles), every loss function in the language of C90 to C92 (it may use jit, remat, grad and scan itself, and change other entries), every well-formed filter, every step function that returns arrays, every gradient transformation that keeps the structure, and every way of calling the step", "why_tests_cant": "It composes grad, filter, tree_map, update_state and jit over arbitrary graphs, loss functions and values; a test trains one model.", "anchors": ["nnx/transforms.py:GradTransform.__call__", "nnx/transforms.py:JitTransform.__call__", "nnx/transforms.py:RematTransform.__call__", "nnx/module.py:Module.filter", "nnx/module.py:Module.update_state", "nnx/state.py:State"]}
{"id": "C95", "title": "Training with the functional API and with lifted transforms gives the same model", "statement": "Let `(params, rest), moduledef = model.partition(wrt, ...)` (or `partition(wrt, other)`). The documented training step of the functional API (`moduledef.apply(params, rest)` inside `jax.grad`, `updates.filter(other)` as auxiliary output, `jax.tree_map(step, params, grads)`) and the documented training step with `nnx.jit` and `nnx.grad` on the model return the same value, and the States returned by the former are exactly what `model.partition(wrt, ...)` returns after the latter, with the same ModuleDef. This holds for loops of any number of steps, and merging the final States gives a Module that cannot be told from the trained model.", "quantifier": "every model graph, every number of steps with a different loss function in each (from the language of C90 to C92) that changes neither the parameters nor the ModuleDef and leaves the other entries matching `other`, every filter `wrt` that looks at paths and types, every step function that returns arrays of the same type, and every world in which the functional step is run", "why_tests_cant": "It relates two different programs over all models, loss functions and numbers of steps.", "anchors": ["nnx/module.py:ModuleDef.apply", "nnx/module.py:ModuleDef.merge", "nnx/module.py:Module.partition", "nnx/transforms.py:GradTransform.__call__", "nnx/transforms.py:JitTransform.__call__", "nnx/state.py:State.filter"]}
{"id": "C96", "title": "Training with a TrainState is training the model", "statement": "Let a TrainState hold the parts and the ModuleDef of model.partition(wrt, ...), with the rest in an attribute. state.apply(params, name) runs what moduledef.apply(params, rest) runs (a name that is not an attribute raises AttributeError before any Module is made). One step of the loop of the documentation (jax.grad of a loss that uses state.apply, then state.apply_gradients(grads=..., name=rest)) gives, for every optimiser, a new TrainState with the optimiser's parameters and state, the new rest and one more step, all other attributes and all earlier TrainStates being what they were; exceptions of the loss function or the optimiser are passed on and make no TrainState. With an optimiser that updates as jax.tree_map(step, params, grads) does, any number of such steps gives what the functional API gives and what training the model itself with nnx.grad and update_state gives (directly, in nnx.jit or nnx.remat): the same returned values, and a TrainState that holds what model.partition(wrt, ...) returns in the end; merging its parts gives a Module that cannot be told from the model.", "quantifier": "every model (any graph, shared Modules included), loss functions that may use transforms, optimiser, number of steps, name of the attribute", "why_tests_cant": "Two training loops must agree for every model and every number of steps; a test compares losses of one model up to tolerance.", "anchors": ["nnx/helpers.py:TrainState.apply", "nnx/helpers.py:TrainState.apply_gradients", "nnx/pytreelib.py:Pytree.replace", "nnx/module.py:ModuleDef.apply", "nnx/transforms.py:GradTransform", "nnx/transforms.py:JitTransform"]}
{"id": "C97", "title": "Copies made with Python's copy module", "statement": "copy.deepcopy(module) gives an independent Module that can be used like the original: it shows the same on every access path with the same sharing, has the same State and ModuleDef, all its Modules are new objects with ids never used before, nothing that existed changes, no later API call on one side changes anything reachable from the other, and its attributes can be assigned like those of the original. copy.copy(module) gives a new object with the same attributes and the same submodules, which as a part of a model counts as a Module of its own.", "quantifier": "every Module graph (sharing and cycles included), trace, history of later calls", "why_tests_cant": "Independence must hold for every graph and every later history; that a copied trace object is no longer valid shows only when the copy is assigned to.", "anchors": ["nnx/ids.py:UUID", "nnx/tracers.py:TraceState", "nnx/module.py:ModuleState", "nnx/module.py:Module._setattr"]}
{"id": "C98", "title": "Loading the state of one model into another", "statement": "Let A and B be models whose ModuleDefs compare equal. Merging the States of A.partition(*filters), in any order and in any later process, into the ModuleDef of B gives a model that is indistinguishable from A as it was (same values and classes on every access path, same sharing; only is_initializing flags may differ), made of new Modules, without changing anything else. If moreover the States of A and B have the same paths and the same container classes and metadata, then B.update_state(A.get_state()) and B.update_state(A) make B indistinguishable from A in the same sense, B's Modules remain the same objects, and nothing outside B changes. B.update_state(A) for a Module of another type raises AssertionError and changes nothing.", "quantifier": "every pair of Module graphs with equal ModuleDefs (sharing and cycles included), filters, order of the States, world in which the States are loaded", "why_tests_cant": "Which ModuleDefs compare equal is decided by a structural comparison that ignores parts of the definition; that this suffices for loading must hold for all graphs.", "anchors": ["nnx/module.py:Module.update_state", "nnx/module.py:ModuleDef.merge", "nnx/module.py:ModuleDef", "nnx/module.py:_update_module"]}
{"id": "C99", "title": "Contexts can be passed through remat, but not through jit", "statement": "Let p be a function of a Module and a Context that draws keys, asks for streams and flags, operates on Modules and calls other functions with its Context, directly or through nnx.remat, nested in any way. Called with a Context of the current trace, it returns or raises what it would if each nnx.remat(f)(m, ctx=ctx) were f(m, ctx=ctx.partition().merge()); if it returns, the Modules and all streams are as after these direct calls. A call through nnx.remat advances the streams of the caller by exactly one per name, whatever f draws and whether it raises, and the Context stays usable; all keys drawn inside and outside of such calls are fresh (derived from pairwise different inputs). A Context of another trace is rejected with TraceContextError before anything is changed. nnx.jit(f)(m, ctx=ctx) never calls f: it raises TypeError (ValueError if ctx is static), leaves the Module as it is, and has advanced the streams; and if jax accepted the argument, make_rng would raise inside f, since the Context is merged outside of the nnx trace of the call.", "quantifier": "all functions built from Module operations, draws, flag queries and calls nested to any depth; all well-formed worlds, Contexts and traces", "why_tests_cant": "nesting of calls, order of draws and sharing of streams between names are unbounded; tests cover single calls", "anchors": ["nnx/transforms.py:remat_apply", "nnx/transforms.py:JitTransform", "nnx/contextlib.py:Context.partition", "nnx/contextlib.py:PureContext"]}
{"id": "C100", "title": "When a ModuleDef can be hashed", "statement": "hash(m.get_module_def()) raises TypeError if and only if some Module reachable from m has an attribute with an unhashable value that is neither a Module nor a node. Sharing and cycles make no difference. In particular the definition of a model that contains an nnx.Remat or nnx.Scan Module cannot be hashed, because the options these keep are objects of a dataclass that defines == but no hash.", "quantifier": "every Module graph (cycles included) and every hash function on classes, names and values", "why_tests_cant": "Which static values occur in a definition depends on the whole graph and on the traversal that skips Modules seen before.", "anchors": ["nnx/module.py:ModuleDef.__hash__", "nnx/module.py:Module.get_module_def", "nnx/transforms.py:RematOptions", "nnx/transforms.py:ScanOptions"]}
{"id": "C101", "title": "The Module classes nnx.Remat and nnx.Scan", "statement": "nnx.Remat(constructor)(...) makes a Module whose only submodule is what constructor(...) made; its state is that Module's state under 'remat_module/'. Calling it, or a method through .call, returns or raises what the direct call on the inner Module does, with the same effects on all Modules that can be reached from it, and without effects on others, also when the method uses transforms itself. nnx.Scan(constructor, length=n)(...) makes a Module whose only submodule has the stacked variables of n Modules constructed separately with split keys, and calling it is the same as calling these n Modules one after the other; a call equals the loop that calls the method on the inner Module with each slice.", "quantifier": "every constructor and method (built from Module operations and calls through transforms), Module graph, options, contexts, number of layers", "why_tests_cant": "The equality with layers made and called separately must hold for all constructors, methods and lengths; tests check single layers and shapes.", "anchors": ["nnx/transforms.py:Remat", "nnx/transforms.py:RematMeta", "nnx/transforms.py:Scan", "nnx/transforms.py:ScanMeta", "nnx/transforms.py:Remat.call", "nnx/transforms.py:Scan.call"]}
{"id": "C102", "title": "Handing the model from step to step as a Pure is calling the steps on the Module", "statement": "Let pure be what model.partition(...) returned, with any filters. A loop of steps that each merge the Pure, call a function on the merged Module and return its partition, each inside of jax.jit, returns or raises what calling the functions on the model itself would, and merging the final Pure gives a Module observationally equal to the model after these calls, including new, deleted, replaced and shared submodules and changed static attributes. pure.call returns or raises what the function does on the model and changes no Module.", "quantifier": "all module graphs (sharing, cycles), all filters, all lists of functions of the model (arbitrary adaptive programs that may themselves use nnx transforms), all worlds the steps run in", "why_tests_cant": "ranges over all graphs, all programs and any number of steps; the tests run one training script", "anchors": ["nnx/module.py:Pure", "nnx/module.py:ModuleDef.apply", "nnx/module.py:ModuleDef.merge", "nnx/module.py:Module.partition", "examples/04_pure.py:train_step"]}
{"id": "C103", "title": "A Pure is a JAX tree: jax.tree_map over Pures works value by value, and flattening and rebuilding gives the Pure back", "statement": "jax.tree_map(f, pure, *others) for Pures of the same structure keeps the ModuleDef and maps the States one by one. If pure came from module.partition(...), merging the result makes a module with the definition of the original and, at every path, the original value with each leaf replaced by what f returned for it and the leaves at the same place in the others; no existing module changes. Pures of another structure (another number of States, other paths, other metadata, another ModuleDef) raise ValueError. Flattening and rebuilding a Pure, as jax.jit does with arguments and results, gives an equal Pure.", "quantifier": "every module graph, every list of filters, every function on leaves, every number of Pures, every world to merge in", "why_tests_cant": "the leaves of several States go through one flat list, and the definition travels as static data; a wrong order or a lost definition only shows for particular combinations of States and structures", "anchors": ["nnx/module.py:_pure_module_flatten", "nnx/module.py:_pure_module_unflatten", "nnx/module.py:_moddef_flatten", "nnx/module.py:_moddef_unflatten", "nnx/module.py:Pure"]}
{"id": "C104", "title": "A scan over layers written by hand with partition, merge and update_state does what calling the layers one after the other does", "statement": "Layers made by jax.vmap(create_block)(keys).merge(), where create_block returns Block(...).partition(), are a new module with the definition of one layer and the stacked variables of all. The forward pass that partitions it with a filter that all variables match, scans with jax.lax.scan over the variables (merge, call, partition in each step) and ends with update_state returns the carry and outputs of calling the layers one after the other. After it, the variables are those of the layers after their calls, stacked, the definition is as before and no other module has changed. It agrees with nnx.scan with variable_axes={filter: 0}. If some variable does not match the filter, or some array does not have one slice per slice of the argument, ValueError is raised and nothing has changed.", "quantifier": "every number of layers, every layer graph and every body, every carry, every argument, every filter", "why_tests_cant": "each step merges a new module and its partition is stacked with those of the other steps; whether the stacked layer is the list of layers depends on all layers, bodies and lengths", "anchors": ["nnx/module.py:Module.partition", "nnx/module.py:ModuleDef.merge", "nnx/module.py:Pure.merge", "nnx/module.py:Module.update_state", "examples/06_scan_over_layers.py:ScanMLP"]}
{"id": "C105", "title": "The state of a model is made of the states of its submodules, under their names; operating on one part leaves the rest alone", "statement": "If model.n is a module that shares nothing with the rest of the model, the entries of model.get_state() below 'n/' are the entries of model.n.get_state(), and model.partition(nnx.All(T, lambda path, node: path.startswith('n/')), ...) separates exactly its variables of type T from all others. After model.n = other, for another such module, the state has the entries of other below 'n/', and all other entries are as before. model.update_state(u) with all paths of u below 'n/' does what model.n.update_state does with the paths without 'n/', whatever is shared.", "quantifier": "every module graph (sharing and cycles inside the submodule included), every attribute name, every type, every new module and every update", "why_tests_cant": "get_state lists each module under the first path found in a traversal of the whole graph, so what is listed below one name depends on all of it", "anchors": ["nnx/module.py:Module.get_state", "nnx/module.py:Module.partition", "nnx/module.py:Module.update_state", "nnx/module.py:Module.__setattr__", "examples/09_parameter_surgery.py:is_trainable"]}
{"id": "C106", "title": "A Module is a dictionary from paths to variables, whatever is done to it", "statement": "Take any sequence of update_state, writes through mutable_state_dict, assignments and deletions of attributes, pop_state, partition followed by merge (with the States in any order), and work on other Modules. If every call returns normally, then get_state of the Module at the end is the dictionary obtained from the dictionary at the start by doing to it what each call says: put values into the boxes of the given paths, remove the matching variables, leave it as it is. Following a path of that dictionary from the Module finds the variable, and two Modules with equal States, in different worlds, end up with equal States after the same calls.", "quantifier": "every sequence of these operations of any length, every Module graph with sharing and cycles, all values; updates for existing paths, pops by filters that look at the variables only", "why_tests_cant": "Unbounded histories over arbitrary graphs; the dictionary is a specification that knows nothing about objects.", "anchors": ["nnx/module.py:Module.update_state", "nnx/module.py:Module.get_state", "nnx/module.py:Module.pop_state", "nnx/module.py:Module.partition", "nnx/module.py:ModuleDef.merge", "nnx/module.py:Module._setattr", "nnx/module.py:Module.mutable_state_dict"]}
{"id": "C107", "title": "Module.filter selects, changes nothing, and moves exactly the selected variables", "statement": "m.filter(*filters) returns one State per filter whenever the filters themselves are acceptable, even when variables match none of them; the i-th State holds exactly the variables of m for which the i-th filter is the first that matches, each equal to what following its path from m finds; where m.partition(*filters) returns, the States are the same. Updating m with its own filtered States changes nothing. target.update_state(source.filter(*filters)) puts, under every path of a matching variable of the source, its value into the box of the target, and leaves all other variables of the target as they were.", "quantifier": "every Module graph with sharing and cycles, every list of filters, every pair of Modules where the target has the paths of the selected variables", "why_tests_cant": "All graphs and all filters; a test sees the variables of one model.", "anchors": ["nnx/module.py:Module.filter", "nnx/module.py:Module.update_state", "nnx/state.py:State.filter"]}
{"id": "C108", "title": "What a call sows can be collected with pop_state, and collecting leaves no trace", "statement": "A call of a model sows values of a Variable class T into Modules of the model, any number of times and to any names, in between other assignments. The call does to all other attributes what it does without the calls of sow. If then model.pop_state(T) is called on a model that has no other variables of class T, it returns a State that holds, for every Module and name, the tuple of all values sown there in this call, in order, in a variable of the class asked for, under a path that leads to the Module; and nothing else. Afterwards every attribute of every Module, and so the State and the ModuleDef of the model, is as after the same call without sow; in a sequence of calls with a pop after each, no value of one call appears in the State of another.", "quantifier": "every sequence of calls, each any sequence of sows and assignments; every Module graph on which pop_state returns (no reference cycles), with sharing; every value", "why_tests_cant": "All sequences of calls and all graphs; a leftover of an earlier call shows only in particular histories.", "anchors": ["nnx/module.py:Module.sow", "nnx/module.py:Module.pop_state", "examples/05_vae.py:train_step"]}
{"id": "C109", "title": "Dropout preserves the mean", "statement": "If every element that jax.random.bernoulli draws is true with the probability it is asked for, then a call of a Dropout whose rate is not 1 either raises the same error whatever is drawn, or returns whatever is drawn, and then the expected value of every element of the output is that element of the input. So is the expected output of a Linear after a Dropout the output of the Linear alone. With rate 1 the output is 0.", "quantifier": "every Dropout and rate, every input of any shape, all broadcast_dims, every distribution of what is drawn (elements and keys may depend on each other)", "why_tests_cant": "An expected value is about all outcomes of the random draws, for every input.", "anchors": ["nnx/nn/stochastic.py:Dropout.__call__", "nnx/nn/linear.py:Linear.__call__"]}
{"id": "C110", "title": "Modules can be keys of dictionaries", "statement": "Keep something for each Module in a dictionary, d[module] = v, and do anything with the Modules in between (assignments, updates, pops, clones, new Modules, traces). Then d[module] is what was last stored for this very object, or KeyError if nothing is kept for it; the hash of a Module never changes and no Module is in the dictionary twice. Modules of classes made with dataclass, like nnx.Dropout, cannot be keys: TypeError.", "quantifier": "every program of dictionary operations and API calls, every hash function on integers (all hashes may collide)", "why_tests_cant": "A hash that depends on anything mutable is only noticed after the right mutation; the histories are unbounded.", "anchors": ["nnx/module.py:Module.__hash__", "nnx/ids.py:UUID", "nnx/dataclasses.py:dataclass", "nnx/nn/stochastic.py:Dropout"]}
{"id": "C111", "title": "repr of a Module in one thread does not depend on other threads", "statement": "If repr(module) is called only while no other thread is inside repr of a Module, then every call, in any thread, on any Module, ends and returns (or raises) what it returns in a process with one thread: every Module written out at its first occurrence. Without that restriction the statement is false: a concurrent call can print Name(...) for the Module itself, can raise TypeError or AttributeError, and three concurrent calls can leave the process in a state in which that Module is never written out again, whatever is called afterwards.", "quantifier": "every schedule of any number of threads, step by step, every Module graph with sharing and cycles", "why_tests_cant": "Races over a global variable: tests run one thread and one schedule.", "anchors": ["nnx/module.py:SEEN_MODULES_REPR", "nnx/module.py:Module.__nnx_repr__", "nnx/reprlib.py:get_repr", "nnx/reprlib.py:ReprContext"]}
{"id": "C112", "title": "Keys drawn in several threads are as good as keys drawn in one", "statement": "If no two threads are inside make_rng or partition on the same stream at the same time (for which it is enough that every thread has its own fork), and each uses the Context at its own trace level, then in every schedule, with asynchronous exceptions at any points, the calls that have returned are, in the order in which they returned, calls made one after the other: same results and same streams. So the keys of all threads come from pairwise different pairs of base key and fold-in string, and the key drawn from a stream depends only on how many calls on that stream returned before, not on the schedule. Without the restriction the statement is false: two threads can draw the same key from a stream, and a thread interrupted in the middle sets the count back, so that another thread later repeats its own keys.", "quantifier": "every schedule of any number of threads, access by access, every point where a call may be interrupted, every set of streams, forks made while running included", "why_tests_cant": "Races over the count of a stream: tests use one thread.", "anchors": ["nnx/contextlib.py:Context.make_rng", "nnx/contextlib.py:Context.partition", "nnx/contextlib.py:RngStream", "nnx/contextlib.py:ContextDef.merge"]}
{"id": "C113", "title": "An interrupted update_state can be repeated", "statement": "Let m.update_state(us) be a call that would succeed, whose paths name no submodule and do not give two values to one attribute of a shared Module. If attempts at this call are interrupted at any point (KeyboardInterrupt, a signal), any number of times, then every attribute of every Module is as it was before or as it would be after the whole call, no Module is created, lost or replaced, every variable keeps its class and metadata, and calling m.update_state(us) again succeeds and leads to exactly the contents that one uninterrupted call leads to.", "quantifier": "every Module graph (shared and cyclic references included), every tuple of States, every number of interrupted attempts and every point of each at which it is interrupted", "why_tests_cant": "The number of interruption points grows with the state and attempts can follow each other; a test interrupts at one place. Shared Modules change the order of assignments between attempts, so that it is not obvious that the repetition is the same update.", "anchors": ["nnx/module.py:Module.update_state", "nnx/module.py:_update_module", "nnx/module.py:_set_value_at_path", "nnx/module.py:Module._setattr"]}
{"id": "C114", "title": "An interrupted pop_state can be repeated, but what it has removed is lost", "statement": "Let m.pop_state(f1..fn) be interrupted at any point, any number of times, on a graph without reference cycles. Only variables that match a filter can be missing afterwards. Calling it again returns, leaves exactly the Modules that one uninterrupted call leaves, and the i-th State it returns holds exactly the variables that were still there and have filter i as first match, under the same paths. A variable that an interrupted attempt has removed is in no State that is returned.", "quantifier": "every Module graph without reference cycles, every tuple of filters (predicates over path and value included), every number of interrupted attempts and every point of each", "why_tests_cant": "Every subset of removals that a prefix of the traversal performs is a state to recover from; filters may look at paths, which depend on the traversal.", "anchors": ["nnx/module.py:Module.pop_state", "nnx/module.py:_pop", "nnx/module.py:_pop_recursive"]}
{"id": "C115", "title": "Threads that work on Modules without common parts do not disturb one another", "statement": "When several threads call update_state, get_state, pop_state and sow on Modules and assign and delete attributes, and the Modules one thread works on (with all their submodules) have nothing in common with those of the other threads, then in every interleaving every call of every thread returns or raises exactly what it would if the other threads did not exist, and the Modules of the thread are exactly as they would be then. Calls that do not overlap with other calls are atomic. (With a common Module this is false: update_state writes back every variable it read, so an update or assignment that a signal handler makes in between is lost although it concerned another variable, and get_state in one thread can return a State that the Module, assigned to by the thread that made it, had at no moment.)", "quantifier": "all Modules (shared, cyclic), all calls of any number of threads, all interleavings of their steps, with exceptions at any point", "why_tests_cant": "interleavings cannot be enumerated by tests, and a lost update is rare", "anchors": ["nnx/module.py:Module.update_state", "nnx/module.py:_update_module", "nnx/module.py:_set_value_at_path", "nnx/module.py:Module.get_state", "nnx/module.py:Module._setattr"]}
{"id": "C116", "title": "In evaluation, every example of a batch is treated on its own", "statement": "Let a model be a chain of Linear, Conv, LayerNorm, BatchNorm (with use_running_average=True), Dropout (deterministic) layers and pointwise functions, whose layers fit the input. Then what it returns for an example of a batch is exactly what it returns for a batch that holds only this example, and more generally calling it on any selection of the examples (reordered, repeated, left out) gives that selection of the outputs. What the other examples of the batch are makes no difference. (In training, BatchNorm makes an example's output depend on the others.)", "quantifier": "all chains of layers of any length and parameters, all batches of all sizes and values, all selections of examples", "why_tests_cant": "A test compares a few batches of fixed sizes; an example leaking into another one (a wrong axis, a wrong reshape around a convolution) can depend on the shape, on the order of the axes or on the values.", "anchors": ["nnx/nn/linear.py:Linear", "nnx/nn/linear.py:Conv", "nnx/nn/normalization.py:LayerNorm", "nnx/nn/normalization.py:BatchNorm", "nnx/nn/stochastic.py:Dropout"]}
{"id": "C117", "title": "Normalization does not see the offset and the scale of its input", "statement": "LayerNorm(x + c) = LayerNorm(x) for every offset c that is the same for all entries normalized together, whatever the layer's scale, bias and epsilon are; and LayerNorm with epsilon a*a*e on a*x + c equals LayerNorm with epsilon e on x for every a > 0. The same holds for BatchNorm in training with an offset per feature, where the contribution of the batch to the running mean is scaled by a and moved by c, and the contribution to the running variance is scaled by a*a.", "quantifier": "all inputs of all shapes, all axes, parameters, offsets and factors, in exact arithmetic", "why_tests_cant": "A test checks a few arrays; using a mean or a variance over other axes than the subtraction does agrees with the right one on many inputs.", "anchors": ["nnx/nn/normalization.py:LayerNorm", "nnx/nn/normalization.py:BatchNorm", "nnx/nn/normalization.py:_compute_stats", "nnx/nn/normalization.py:_normalize"]}
{"id": "C118", "title": "Convolutions are linear, keep feature groups apart, and are linear layers for kernels of size 1", "statement": "For every Conv that fits its input, with every padding, stride, dilation and number of feature groups: without bias, the output for a linear combination of inputs is that combination of the outputs; an output feature depends only on the input features of its own group (and on its own batch entry): changing all others does not change it; and with one group, kernel size 1, stride 1, no input dilation and a padding given by name, calling the Conv is calling the Linear layer with the same kernel and bias at every position.", "quantifier": "all Conv layers, all inputs of every number of batch and spatial dimensions, all coefficients, in exact arithmetic", "why_tests_cant": "Tests cover a few shapes; a wrong group boundary or padding shows only for some combinations of lengths, strides, dilations and groups.", "anchors": ["nnx/nn/linear.py:Conv", "nnx/nn/linear.py:Linear"]}
{"id": "C119", "title": "A Module can only be assigned to by the thread that made it", "statement": "Threads have different current traces. If a thread t works on Modules it made (a set of Modules closed under submodules), then whatever the other threads do, with their own Modules or with these (reading them, updating them, assigning to them, sowing into them, putting them into their own Modules) short of deleting their attributes, in every interleaving the calls of t return or raise exactly what they would if there were no other threads and the Modules are exactly as they would be then: there are no lost updates between threads. An assignment by another thread raises TraceContextError and changes nothing. Modules made at a trace at which no thread is do not change at all. (pop_state and del are not checked: pop_state in another thread takes the variables out, and if both threads pop, a variable can end up in neither of the results.)", "quantifier": "all Module graphs (shared, cyclic), all calls of any number of threads on any Modules, all interleavings of their steps, with exceptions at any point", "why_tests_cant": "interleavings cannot be enumerated by tests; one missing check on one of the paths that assign is enough to break it", "anchors": ["nnx/tracers.py:TraceState", "nnx/tracers.py:TraceContext", "nnx/module.py:Module._setattr", "nnx/module.py:Module.update_state", "nnx/module.py:_set_value_at_path", "nnx/module.py:Module.sow", "nnx/module.py:Module.pop_state"]}
{"id": "C120", "title": "A chain of causal layers never looks ahead and can be evaluated on a window", "statement": "A chain of Conv layers with padding='CAUSAL' and stride 1, Linear layers, LayerNorm over the feature axis, BatchNorm using its running averages, Dropout that is switched off and activation functions, applied to sequences: the result at a time depends only on that time and the r times before it, where r is the sum over the convolutions of kernel_dilation * (kernel_size - 1). So evaluating a prefix of the sequence gives the prefix of the result, and evaluating any window of it gives the results of the whole sequence but for the first r times of the window.", "quantifier": "all such chains (any number of layers, kernel sizes, dilations, groups, feature counts, batch dimensions), all sequences, lengths, times and windows", "why_tests_cant": "an off-by-one in the padding of one dilation/kernel-size combination, or a layer that mixes times, only shows for particular depths and lengths", "anchors": ["nnx/nn/linear.py:Conv", "nnx/nn/linear.py:Linear", "nnx/nn/normalization.py:LayerNorm", "nnx/nn/normalization.py:BatchNorm", "nnx/nn/stochastic.py:Dropout"]}
{"id": "C121", "title": "Containers are objects: only the program itself changes one, and no two attributes share a node", "statement": "Containers are Python objects that a Module, a State and the program may hold at the same time. No operation (constructing a container, creating a Module, assigning or deleting an attribute, get_state, partition, merge, update_state, pop_state, sow) changes a container object that exists: a State, a definition or a container that the program holds shows the same contents after any operations. What operations store in a Module is newly made, so two attributes never hold the same container of a node class, and when the program writes to such a container in place this changes at most one attribute of one Module. The entries of a State from get_state are the very objects that the Module holds, so a write to one changes the Module; those from pop_state are held by no Module any more; merged and cloned Modules hold none that existed before. Otherwise a program sees exactly what it would see if attributes and entries held contents instead of objects. Static containers are not copied: a Module and its clone share them.", "quantifier": "all programs made of these operations with any existing objects as arguments, and of writes to containers at any point, that succeed or raise; all graphs of Modules, filters, classes, values and metadata", "why_tests_cant": "whether two places hold the same object depends on the whole history of the program; a test can only look at some histories and some places", "anchors": ["nnx/module.py:Module._setattr", "nnx/module.py:Module.get_state", "nnx/module.py:Module.partition", "nnx/module.py:Module.pop_state", "nnx/module.py:Module.update_state", "nnx/module.py:Module.sow", "nnx/module.py:ModuleDef.merge", "nnx/containers.py:Container.replace", "nnx/containers.py:Container.copy"]}
{"id": "C122", "title": "Sharding metadata follows Nodes wherever they are in a tree", "statement": "add_axis and remove_axis on a tree (or on a State) find the Nodes at every depth, inside dicts, tuples, Pytrees and other containers, but not inside another Node. add_axis always succeeds: each outermost Node with a sharding gets the name inserted at the position, padded with None if it is too short, and everything else is unchanged. remove_axis succeeds exactly if every outermost Node with a sharding has the name at the position, and then takes it out; otherwise it raises IndexError or AssertionError. remove_axis undoes add_axis if the shardings are at least as long as the position. Without partition_name both raise ValueError. get_partition_spec replaces each outermost Node and each leaf by its PartitionSpec or None and keeps the structure.", "quantifier": "all trees of any depth and width, all States of such values, all positions (not negative), names and shardings", "why_tests_cant": "the trees, their depth and the mix of Nodes with and without sharding are not bounded", "anchors": ["nnx/spmd.py:add_axis", "nnx/spmd.py:remove_axis", "nnx/spmd.py:get_partition_spec"]}
{"id": "C123", "title": "Tracers do not leak into Modules", "statement": "A program uses Modules directly and inside of jax.jit, jax.lax.scan, nnx.jit, nnx.scan, nnx.remat and nnx.grad, nested in any way. When a transformation has been left, no Module from before it holds a tracer of it that it did not hold before: inside, assignments to Modules made outside raise TraceContextError, and such Modules can only lose attributes (del, pop_state). A Module made inside is refused for ever once the transformation is left: after any program and inside of any transformation, assignments to it raise TraceContextError. The guard does not notice jax.grad, jax.jvp and jax.vmap used directly, nor nnx.grad of an empty State inside of nnx.grad: there a tracer can be assigned to a Module from outside and stays in it.", "quantifier": "every program of API calls (assign, delete, create, merge, clone, update_state, pop_state, sow, init flags), every nesting of transformations, every world of Modules, every array that is a tracer", "why_tests_cant": "a leaked tracer is only found by the nesting that lets it through; the nestings and the sequences of calls inside of them have no bound, and the guard compares identities of traces that jax makes anew at each entry", "anchors": ["nnx/tracers.py:TraceState", "nnx/tracers.py:nnx_trace", "nnx/tracers.py:get_top_trace", "nnx/tracers.py:current_jax_trace", "nnx/module.py:Module._setattr", "nnx/transforms.py:JitTransform", "nnx/transforms.py:GradTransform"]}
{"id": "C124", "title": "Modules inside of lists and other objects are not submodules", "statement": "A Module that another Module holds only inside of a list, a tuple, a dict or another object is not one of its submodules. A clone, and a Module merged from a partition, hold the very same Modules in their lists as the original, not copies; no sequence of calls on a Module changes the Modules in its lists; and calls on these change neither the State nor the definition of the Module that has the list. So clone() does not make such a Module independent: an assignment to a layer in a list is seen through the original and through the clone.", "quantifier": "all Modules, all objects they hold and all Modules inside of those, all sequences of calls", "why_tests_cant": "a test looks at one list of layers and one call; that no operation goes into any container is a claim about all programs", "anchors": ["nnx/module.py:Module.clone", "nnx/module.py:Module.partition", "nnx/module.py:ModuleDef.merge", "nnx/module.py:Module.update_state", "nnx/module.py:_iter_state_recursive", "nnx/module.py:_get_module_state", "nnx/nodes.py:is_node"]}
{"id": "C125", "title": "Normalization of complex arrays", "statement": "LayerNorm and BatchNorm accept complex arrays. The mean is the complex mean, the variance is the mean squared distance from it, a real number that is never negative, and each entry becomes (x - mean) * rsqrt(var + epsilon) * scale + bias. In training the output of BatchNorm has in every feature the mean bias and the variance var / (var + epsilon) * |scale|^2. On real arrays the result, and the module afterwards, are those of the computation with real numbers. Multiplying the input by a complex number of absolute value 1 multiplies the output of a LayerNorm without a bias by it.", "quantifier": "all shapes, complex inputs, axes, parameters and statistics, in exact arithmetic", "why_tests_cant": "no finite set of inputs shows that E|x|^2 - |E x|^2 is the variance and is never negative", "anchors": ["nnx/nn/normalization.py:_abs_sq", "nnx/nn/normalization.py:_compute_stats", "nnx/nn/normalization.py:_normalize", "nnx/nn/normalization.py:LayerNorm", "nnx/nn/normalization.py:BatchNorm"]}
{"id": "C126", "title": "Registered node types", "statement": "A program may register further node types with nnx.register_node_type. Then is_node holds exactly of the instances of the types of the library and of the types registered so far, in whatever order; get_state has exactly one entry for every attribute of a reachable Module that holds such a value, get_module_def lists exactly the other values as static fields; registering one more type only adds the entries of its values; partition with any filters and merge, and clone, still give an observationally equal Module, with the values of registered types in it; update_state changes exactly the addressed attributes and keeps all others, also those with values of registered types. The parts must be taken under one registry: a State taken before a registration and a ModuleDef taken after it merge without an exception to a Module that has lost the values of the new type.", "quantifier": "all sequences of registrations, all graphs of Modules, all filters, all orders of the parts", "why_tests_cant": "the registrations and the types of the values are chosen by the user; that no value is lost or duplicated between the State and the definition is a claim about all of them", "anchors": ["nnx/nodes.py:register_node_type", "nnx/nodes.py:is_node", "nnx/module.py:_iter_state_recursive", "nnx/module.py:_make_module_def_recursive", "nnx/module.py:Module.partition", "nnx/module.py:Module.clone", "nnx/module.py:ModuleDef.merge"]}
{"id": "C127", "title": "An interrupted or failing merge or clone changes no Module and can be repeated", "statement": "However far merge or clone has come when it raises, or is stopped by an exception from outside (KeyboardInterrupt, a signal handler): every Module that existed before has the attributes it had, and the traces are the same; only ids have been used up. This holds for every ModuleDef and all States, also such that do not fit. After any number of such attempts, of whatever ModuleDefs and Modules, merging the parts of a Module, and cloning it, succeed and give an observationally equal Module made of new Modules.", "quantifier": "all ModuleDefs, all States, all Modules, all points at which the call can be stopped, all sequences of stopped attempts", "why_tests_cant": "the point of the interruption cannot be chosen in a test, and the claim is about all other Modules of the program", "anchors": ["nnx/module.py:ModuleDef.merge", "nnx/module.py:Module.clone", "nnx/module.py:_build_module", "nnx/module.py:_build_module_recursive", "nnx/module.py:_update_module"]}
{"id": "C128", "title": "Donating a Module's arrays to a jitted function", "statement": "Calling nnx.jit(f, donate_argnums=0)(m) hands the buffers of all arrays of m over to the compiled program. If a direct call f(m) returns and only writes nodes, the donating call returns the same output; exactly the buffers m used are gone; m holds new arrays with the contents of a direct call, none of them gone and no two alike, so that a training loop of such calls never meets a deleted array, however long it is. If f raises, nothing is donated and no Module is changed. With stateful=False the Module is left with arrays that are all gone. Clones and other Modules that share the arrays keep them and are left with arrays that are gone, and so is an attribute that f deletes (the deletion is not written back). A Module that holds one array in two attributes, or an array that is gone, is rejected.", "quantifier": "every Module graph (with sharing and cycles), every function that reads, assigns, deletes, creates and raises, every number of calls, every numbering of buffers", "why_tests_cant": "tests run on CPU, where donation is ignored; whether every array of an arbitrary module graph is replaced before it is used again depends on the graph and on the history of calls", "anchors": ["nnx/transforms.py:jit", "nnx/transforms.py:JitTransform", "nnx/module.py:Module.update_state", "nnx/module.py:Module.clone"]}
{"id": "C129", "title": "What traversals and updates cost", "statement": "get_state and get_module_def (hence partition and clone) look at every attribute of every reachable Module exactly once, however many paths lead to it (there may be exponentially or infinitely many). Their depth of recursion is at most the number of reachable Modules plus one, whatever other Modules there are; this bound is attained: on a ring of n Modules linked to both neighbours, which are all within n/2 attributes of the root, get_state succeeds if and only if more than n levels are available, so long rings exceed Python's recursion limit. merge and clone make exactly one new Module for each reachable one. update_state, however small the update, walks from the root to every path of the whole state: its cost is the total number of names in all these paths, which on a row of n + 1 Modules is (n + 1)(n + 2) / 2 for an update of a single value.", "quantifier": "every Module graph (shared, cyclic), every recursion budget, every n", "why_tests_cant": "a traversal that forgets to mark a Module in one case still returns the right State on small examples, but takes exponential time on deep graphs with sharing", "anchors": ["nnx/module.py:_iter_state_recursive", "nnx/module.py:_make_module_def_recursive", "nnx/module.py:Module.get_state", "nnx/module.py:Module.get_module_def", "nnx/module.py:Module.partition", "nnx/module.py:Module.update_state", "nnx/module.py:_set_value_at_path", "nnx/module.py:Module.clone"]}
{"id": "C130", "title": "repr nests", "statement": "What repr prints for an object (State, ModuleDef, Variable, Pytree) inside of another one is what it prints for the object alone, with every line moved to the right. So repr(state) has one entry for each path, in order, with the text of its value; repr(moduledef) shows the class, the index, the static fields and each submodule by its index or by the text of its own definition; repr(variable) lists metadata and value. (False of the code for Pytrees and containers held by a Pytree or a Variable: they are moved to the right twice at each level, so that the indentation grows quadratically.)", "quantifier": "all States, ModuleDefs (any nesting), containers and Pytrees, all depths of nesting, all texts of the values, with any line breaks", "why_tests_cant": "the layout depends on how objects are nested and on line breaks in the texts of values; tests compare a few printouts", "anchors": ["nnx/reprlib.py:get_repr", "nnx/reprlib.py:add_indent", "nnx/state.py:State.__nnx_repr__", "nnx/module.py:ModuleDef.__nnx_repr__", "nnx/module.py:_SubmodulesRepr", "nnx/containers.py:Container.__nnx_repr__", "nnx/pytreelib.py:Pytree.__nnx_repr__"]}
{"id": "C131", "title": "Node types registered by several threads", "statement": "Threads call nnx.register_node_type at any times. The types of the library and those registered before the threads started are nodes at all times, for all threads; every other registered type was passed to some call; the type of the call that returned last is registered; and if the calls do not overlap, every type whose call returned is registered, and a partition during which types are registered loses no value: merge gives an equal Module. (That a type stays registered once its call returned, in every schedule, is false.)", "quantifier": "every number of threads, every schedule of the reads and assignments of the registry, all types, all types registered before", "why_tests_cant": "a race shows up in very few schedules; tests register types in one thread, when modules are imported", "anchors": ["nnx/nodes.py:register_node_type", "nnx/nodes.py:is_node", "nnx/module.py:Module.partition"]}
{"id": "C132", "title": "A call of a Sequence leaves the dictionaries of its layers alone", "statement": "Layers may keep and return dictionaries. A call of an nnx.Sequence without ctx writes into no dictionary and does what C66 says. With ctx, if the layers make the dictionaries they return, it has the effect and the result of C66 and changes no dictionary that existed before the call; whatever they return, it changes at most the entry 'ctx' of such a dictionary. So what a layer receives does not depend on earlier calls. (For layers that return a dictionary they keep this is false.)", "quantifier": "all numbers of layers, all layers with any state and signature, all arguments and contexts, all dictionaries of the program", "why_tests_cant": "the effect shows in a later call, and only when a layer returns the same dictionary object again", "anchors": ["nnx/helpers.py:Sequence.__call__", "nnx/helpers.py:has_keyword_arg"]}
{"id": "C133", "title": "== of Modules", "statement": "For Modules of ordinary classes, and for Dicts, x == y is True exactly if x and y are the same object, and never raises, whatever they contain; Dicts, which are Mappings, with the same items are equal. For Modules of a dataclass x == y is True exactly if the classes are the same and all fields are equal; in particular such a Module, with only such submodules, equals its clone.", "quantifier": "every two Modules of every reachable heap, every contents and every way in which the contents compare (arrays may raise), every depth and sharing", "why_tests_cant": "Which comparison is used depends on the class, and how far it gets on the contents; nested dataclass Modules and shared submodules have unboundedly many shapes.", "anchors": ["nnx/helpers.py:Dict", "nnx/module.py:Module", "nnx/module.py:ModuleState", "nnx/dataclasses.py:dataclass", "nnx/nn/stochastic.py:Dropout"]}
{"id": "C134", "title": "Attributes may have any name", "statement": "After m.name = x, m.name is x, or the value of the container x; all other names of m, and its methods, mean what they meant before, and the methods of Module that use each other, clone and apply, still work.", "quantifier": "every reachable heap, every Module, every name and value, every class with its own properties and methods", "why_tests_cant": "There are unboundedly many names, and what a clash does depends on the lookup order of Python and on which methods call which others by name.", "anchors": ["nnx/module.py:Module.__getattribute__", "nnx/module.py:Module._setattr", "nnx/module.py:Module.clone", "nnx/module.py:Module.apply", "nnx/module.py:Module.init", "nnx/helpers.py:Dict"]}
{"id": "C135", "title": "The flags of a Context", "statement": "A Context keeps the flags it was made with: has_flag and get_flag give the same answers all its life, whatever the program does afterwards with other Contexts, copies, partition and merge, and with dictionaries. Partition records the flags of the moment, merge makes a Context with exactly these, and a copy has the flags of the original.", "quantifier": "every program that makes and changes dictionaries and makes, copies, partitions and merges Contexts, of any length", "why_tests_cant": "Over all histories and all aliasing. NOTE: false of the code: context(flags=d) keeps the dictionary d itself, unless it is empty, so that later changes of d are changes of the Context and its copies.", "anchors": ["nnx/contextlib.py:context", "nnx/contextlib.py:Context.copy", "nnx/contextlib.py:Context.partition", "nnx/contextlib.py:Context.get_flag", "nnx/contextlib.py:ContextDef.merge"]}
{"id": "C136", "title": "What layers compute before they are trained", "statement": "With the default initialisers of biases and scales, whatever initialises the kernels and whatever keys were drawn: a new Linear is linear (combinations of inputs give the same combinations of outputs), with or without bias; a new Conv gives what one without bias made from the same context gives; a new BatchNorm that uses running averages only divides by sqrt(1 + epsilon), and in training gives outputs of mean zero and variance v / (v + epsilon) in every feature; the outputs of a new LayerNorm have mean zero and variance v / (v + epsilon) among the entries that are normalized together.", "quantifier": "all numbers of features, all shapes of inputs and all inputs, all kernel initialisers, all states of the random streams, with or without bias and scale, all epsilons, axes and modes", "why_tests_cant": "a wrong default (a bias that is not zero, statistics that start elsewhere) shifts all outputs by amounts that look plausible; tests compare shapes or a few numbers", "anchors": ["nnx/nn/initializers.py:zeros", "nnx/nn/initializers.py:ones", "nnx/nn/linear.py:Linear", "nnx/nn/linear.py:Conv", "nnx/nn/normalization.py:BatchNorm", "nnx/nn/normalization.py:LayerNorm"]}
{"id": "C137", "title": "An interrupted init can be repeated, but leaves marks", "statement": "If an asynchronous exception (an interrupt from the keyboard, say) arrives while `module.init.method(...)` marks the Modules, it comes out, the method is not called, and the Modules marked so far keep saying that they are initializing; if it arrives while the marks are taken away, it replaces the result of the method, whose effects stay, and the other Modules keep their marks. In both cases nothing but the flags is affected. Marks that are left on reachable Modules make no difference to another init call on the same Module: it gives the same result and the same world as it would have without the interruption. Such marks are not part of the state of any Module, and ModuleDefs with and without them compare equal; but nnx.jit traces its function again for a Module with such a mark.", "quantifier": "all graphs of Modules, all methods, all moments of the interruption between two flag assignments, all sets of reachable Modules whose flag was left either way", "why_tests_cant": "the moments at which an exception can arrive are as many as there are Modules, and tests cannot place an interrupt between two iterations of a loop in the library", "anchors": ["nnx/module.py:Module.init", "nnx/module.py:Module.for_each"]}
{"id": "C138", "title": "A jitted step, a gradient or a remat that is interrupted", "statement": "If an asynchronous exception (an interrupt from the keyboard, say) arrives while the function passed to nnx.jit runs, after any number of its steps, the jitted call raises it and every Module the caller has is exactly as before the call. If it arrives while the results are written to the Module, every attribute of every existing Module is either as before the call or as a direct call would have left it, and classes, ids, flags and traces are unchanged; nothing has changed before the first assignment, and after the last one everything is as after a direct call. The write-back is not atomic: values that every complete step changes together can be apart after an interrupted one, and calling the step again does not bring them together. The same holds of nnx.remat and of nnx.grad (whose gradient is lost). After any history of jitted calls, each of which may have returned, raised or been interrupted, the Module is what it was up to the values of arrays and Variables, nothing outside of it has changed, and it can be used as before.", "quantifier": "all functions whose net effect is node writes, all graphs of Modules, all moments of the interruption between two steps of the function or two assignments of the update", "why_tests_cant": "an interrupt can arrive at as many moments as there are steps and attributes; tests cannot place one inside of the library", "anchors": ["nnx/transforms.py:JitTransform.__call__", "nnx/transforms.py:GradTransform.__call__", "nnx/transforms.py:remat_apply", "nnx/module.py:Module.update_state"]}
{"id": "C139", "title": "Keys after an interrupted make_rng or partition", "statement": "If an asynchronous exception (an interrupt from the keyboard, say) arrives during ctx.make_rng, the call has the effect of no call or of a whole call whose key is lost: repeated, it returns the key it would have returned or the one the next call would have. If one arrives during ctx.partition, each stream has been counted up once for every one of the first n names, for some n, and keeps its key and path; nothing else changes. Every context can be used afterwards where it could be used before. In every history of context, make_rng, partition, merge, copy and trace changes in which any of these calls were interrupted at any points, the keys returned are derived from pairwise different pairs of a base key and a fold-in string: no randomness is repeated because a step was interrupted and run again.", "quantifier": "all histories of calls, all choices of the calls that are interrupted and of the moment in each", "why_tests_cant": "a repeated key is silent, and an interrupt cannot be placed inside of the library by a test", "anchors": ["nnx/contextlib.py:Context.make_rng", "nnx/contextlib.py:Context.partition"]}
{"id": "C140", "title": "An interruption at the edge of a trace block or of logical_axis_rules", "statement": "If an asynchronous exception (an interrupt from the keyboard, say) arrives once, at any moment of a program with nested nnx_trace blocks, the stack of nnx traces afterwards is as it was, or has one trace too many: that of one of the program's outermost blocks. An interruption in the body restores it; one between entering a block and its try, or in its finally clause, does not, however deep the block is. A trace that was left stays for ever: no later block removes it, no Module or Context made before can be used any more (TraceContextError). Logical axis rules are, after one interruption of a program that sets them by blocks only, as they were or as at the end of the body of one of its outermost blocks; a block around the interrupted one repairs them.", "quantifier": "all programs with blocks, exceptions and handlers nested to any depth, all moments of the interruption", "why_tests_cant": "the window between two bytecodes cannot be hit by a test, and there are as many moments as steps", "anchors": ["nnx/tracers.py:nnx_trace", "nnx/tracers.py:TraceState", "nnx/spmd.py:logical_axis_rules", "nnx/contextlib.py:Context.make_rng"]}
