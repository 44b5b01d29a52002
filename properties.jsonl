{"id": "C01", "title": "A new map is empty", "statement": "`HashTrieMap::new()` has size 0, `find` and `remove` of every key return NotFound, and `visit` calls its callback zero times.", "quantifier": "every key and every hasher", "why_tests_cant": "the claim is about every possible key and hasher", "anchors": ["src/hash_trie.rs: HashTrie::new, find, remove, visit", "src/node/mnode.rs: MNode::default", "src/node/cnode.rs: CNode::default"]}
{"id": "C02", "title": "Inserting a fresh key", "statement": "If `find(k)` is NotFound, then `insert(k, v, replace)` (either value of `replace`) succeeds with no previous entry; the returned map finds (k, v) under k, answers exactly as before for every key not equal to k, and its size is one larger.", "quantifier": "every reachable map, key, value, replace flag and hasher", "why_tests_cant": "ranges over all reachable trie shapes, including arbitrarily deep shared hash prefixes and full collisions", "anchors": ["src/hash_trie.rs: HashTrie::insert", "src/node/cnode.rs: CNode::insert, lift_to_cnode_and_insert", "src/node/lnode.rs: insert, lift_to_cnode_and_insert", "src/node/snode.rs: insert"]}
{"id": "C03", "title": "Inserting a present key without replacement", "statement": "If `find(k)` is (k0, v0), then `insert(k, v, false)` fails and hands back exactly (k0, v0).", "quantifier": "every reachable map and present key", "why_tests_cant": "ranges over all reachable trie shapes", "anchors": ["src/hash_trie.rs: HashTrie::insert", "src/node/snode.rs: insert", "src/node/lnode.rs: insert"]}
{"id": "C04", "title": "Inserting a present key with replacement", "statement": "If `find(k)` is (k0, v0), then `insert(k, v, true)` succeeds and returns (k0, v0) as the previous entry; the new map finds the NEW key object and NEW value (k, v) under k, keeps every other key's entry, and has the same size.", "quantifier": "every reachable map, present key (possibly equal to but distinguishable from the stored key) and value", "why_tests_cant": "ranges over all trie shapes and over key types whose equality is coarser than identity", "anchors": ["src/hash_trie.rs: HashTrie::insert", "src/node/snode.rs: insert", "src/node/lnode.rs: insert, remove_from_lnode"]}
{"id": "C05", "title": "The entry pointers returned by insert are the stored entry", "statement": "On success `insert` returns pointers to the key and value stored in the new map: the pair they denote is exactly the pair `find(k)` on the returned map yields, i.e. the inserted one.", "quantifier": "every reachable map, key, value and replace flag", "why_tests_cant": "raw pointers into nodes of every possible shape", "anchors": ["src/hash_trie.rs: HashTrie::insert", "src/node/snode.rs: insert", "src/node/lnode.rs: insert", "src/node/cnode.rs: insert"]}
{"id": "C06", "title": "Removing a present key", "statement": "If `find(k)` is (k0, v0), then `remove(k)` succeeds and returns (k0, v0); the new map does not find k, answers as before for every other key, and its size is one smaller.", "quantifier": "every reachable map and present key", "why_tests_cant": "ranges over all trie shapes, including collapsing chains and collision lists of any length", "anchors": ["src/hash_trie.rs: HashTrie::remove", "src/node/cnode.rs: remove", "src/node/lnode.rs: remove_from_lnode", "src/node/snode.rs: remove"]}
{"id": "C07", "title": "Removing an absent key", "statement": "If `find(k)` is NotFound then `remove(k)` returns NotFound.", "quantifier": "every reachable map and absent key", "why_tests_cant": "ranges over all trie shapes", "anchors": ["src/hash_trie.rs: HashTrie::remove", "src/node/cnode.rs: remove"]}
{"id": "C08", "title": "size counts distinct keys", "statement": "`size()` equals the number of entries `visit` reports, which have pairwise distinct keys, and equals the number of distinct keys present.", "quantifier": "every reachable map", "why_tests_cant": "the cached size is updated incrementally at every level; any history could desynchronise it", "anchors": ["src/hash_trie.rs: HashTrie::size", "src/node/cnode.rs: CNode::size, insert, remove", "src/node/lnode.rs: LNode::new, size"]}
{"id": "C09", "title": "Every history of inserts and removes refines an abstract finite map", "statement": "For any finite sequence of insert / remove calls starting at `new()`, each result (success or failure, previous/removed/blocking entry) and each subsequent find, size and visit answer equals that of an abstract finite map keyed by key equality.", "quantifier": "every finite operation history, key type, hasher", "why_tests_cant": "unbounded histories", "anchors": ["src/hash_trie.rs: HashTrie::insert, remove, find, size, visit"]}
{"id": "C10", "title": "Hash quality never affects correctness", "statement": "The results of insert, find, remove and size over any history are the same for any two hash functions that respect key equality, in particular for a constant hash where every key collides.", "quantifier": "every pair of hashers and every history", "why_tests_cant": "all hash functions cannot be enumerated; full 64-bit collisions are not practically generated by tests", "anchors": ["src/flag.rs: Flag", "src/node/lnode.rs: insert, remove", "src/node/cnode.rs: lift_to_cnode_and_insert"]}
{"id": "C11", "title": "visit reports every entry exactly once", "statement": "`visit(op)` calls op on exactly the entries of the map, each exactly once, and no two reported keys are equal; (k,v) is reported iff find(k) yields (k,v).", "quantifier": "every reachable map", "why_tests_cant": "all trie shapes", "anchors": ["src/hash_trie.rs: visit", "src/node/cnode.rs: visit", "src/node/lnode.rs: visit", "src/node/snode.rs: visit"]}
{"id": "C12", "title": "Old versions persist", "statement": "Operations never change a previously obtained map: after any history of operations on any of the versions obtained so far (branching allowed), every older version still answers find, size and visit as when it was created.", "quantifier": "every branching history of versions", "why_tests_cant": "unbounded branching histories", "anchors": ["src/hash_trie.rs: HashTrie (shared Arc nodes, &self methods)"]}
{"id": "C13", "title": "No panic in a release build", "statement": "In a build without arithmetic overflow checks, no sequence of insert, remove, find, visit, size calls panics (no unwrap on None, no failed bit operation, no exhausted hash depth), whatever the hash.", "quantifier": "every history, hasher, hash-word width and flag-word width", "why_tests_cant": "panics would need particular hash prefixes at maximum depth", "anchors": ["src/flag.rs: new_at_depth", "src/node/cnode.rs: insert, remove, lift_to_cnode_and_insert", "src/bit_indexed_array.rs: inserted, updated, removed"]}
{"id": "C14", "title": "No panic in an overflow-checked (debug) build", "statement": "In a build with arithmetic overflow checks, no sequence of insert, remove and find calls panics, whatever the hash.", "quantifier": "every history, hasher, word widths", "why_tests_cant": "needs keys whose hashes share all but the last chunk of bits", "anchors": ["src/flag.rs: new_at_depth (bound is 8 * max_ones although max_ones already counts bits)", "src/node/cnode.rs: insert, remove (flag.next() evaluated eagerly)"]}
{"id": "C15", "title": "find never panics and never overflows", "statement": "`find` returns normally on every reachable map in both kinds of build.", "quantifier": "every reachable map, key and build kind", "why_tests_cant": "needs maximum-depth tries", "anchors": ["src/flag.rs: next", "src/node/cnode.rs: find"]}
{"id": "C16", "title": "transform acts per entry", "statement": "`transform` with a generic operation yields the map in which each entry (k,v) is kept if the operation says Unchanged, has its value replaced (same key) if Transformed, and is absent if Removed; and no other entries.", "quantifier": "every reachable map, every operation", "why_tests_cant": "all maps and all operations", "anchors": ["src/node/cnode.rs: transform, transform_impl", "src/node/lnode.rs: transform, transform_result", "src/node/snode.rs: transform", "src/hash_trie.rs: transform"]}
{"id": "C17", "title": "Bulk results can be used like any other map", "statement": "Maps returned by transform, transmute and the joint operations (outside the cases refuted elsewhere) satisfy all of the insert/find/remove/size/visit properties above, so that arbitrary histories mixing bulk operations with inserts and removes still refine the abstract map.", "quantifier": "every history mixing all operations", "why_tests_cant": "result shapes (e.g. a root that is a single entry or a collision list, wrapped chains) do not arise from inserts alone", "anchors": ["src/node/cnode.rs: transform, transmute, *_cnode, *_lnode, *_snode", "src/hash_trie.rs: singleton"]}
{"id": "C18", "title": "transform reduction", "statement": "For a monoid (reduce_op associative with Default as identity), the second result of `transform` with a generic operation is the reduction, in visit order, of the per-entry reductions; the operation is consulted once for each entry.", "quantifier": "every map, operation and monoid", "why_tests_cant": "all maps, all monoids", "anchors": ["src/node/cnode.rs: transform, transform_impl", "src/node/lnode.rs: transform_result"]}
{"id": "C19", "title": "Parallelism strategy is unobservable", "statement": "`Sequential` and `MiddleIndex` give the same resulting map contents, and for a monoid the same reduction, in transform and all joint operations.", "quantifier": "every map, operation and strategy", "why_tests_cant": "all split positions and shapes", "anchors": ["src/node/cnode.rs: transform, transform_with_transformed_cnode, transform_with_transmuted_cnode, transmute_with_transformed_cnode", "src/enums.rs: ParallelismStrategy"]}
{"id": "C20", "title": "transmute acts per entry", "statement": "For an operation that preserves hash and key equality (the documented unsafe contract), `transmute` yields exactly the transmuted entries, under the new keys, in the same order, and the reduction of the per-entry reductions.", "quantifier": "every map and every contract-abiding operation, including those that change key and value types", "why_tests_cant": "all maps and operations", "anchors": ["src/node/cnode.rs: transmute", "src/node/lnode.rs: transmute, transmute_result", "src/node/snode.rs: transmute", "src/hash_trie.rs: transmute"]}
{"id": "C21", "title": "transform_with_transformed acts per key", "statement": "For each key: absent from both, absent from the result; only left, as left_op says; only right, as right_op says; in both, as both_op says (UnchangedL keeps the left value, UnchangedR the right one, UnchangedLR either).", "quantifier": "every pair of reachable maps and all operations", "why_tests_cant": "all pairs of trie shapes", "anchors": ["src/node/cnode.rs: transform_with_transformed_cnode, _lnode, _snode", "src/node/lnode.rs: transform_with_transformed_lnode, *_result tables", "src/node/snode.rs: transform_with_transformed_snode", "src/node/mnode.rs: transform_with_transformed"]}
{"id": "C22", "title": "Bulk left/right identity is not confused", "statement": "In `transform_with_transformed`, a bulk both_op UnchangedL keeps the left entry and UnchangedR the right entry for each key in both maps.", "quantifier": "every pair of reachable maps", "why_tests_cant": "the failure depends on which side happens to be deeper at a position", "anchors": ["src/transformations.rs: MapJointTransform::flip, SetJointTransform::flip", "src/node/mnode.rs: transform_with_transformed"]}
{"id": "C23", "title": "Joint operations terminate", "statement": "Every joint operation returns after finitely many steps.", "quantifier": "every pair of reachable maps and all operations", "why_tests_cant": "needs three keys with fully colliding hashes in one map", "anchors": ["src/node/lnode.rs: transform_with_transformed_lnode, transform_with_transmuted_lnode, transmute_with_transmuted_lnode (loops collecting rights)"]}
{"id": "C24", "title": "transform_with_transmuted acts per key", "statement": "For each key: only left, as left_op says; only right, the transmuted right entry or nothing; in both, as both_op says about the left entry.", "quantifier": "every pair of reachable maps and contract-abiding operations", "why_tests_cant": "all pairs of trie shapes", "anchors": ["src/node/cnode.rs: transform_with_transmuted_*", "src/node/lnode.rs: transform_with_transmuted_*", "src/node/snode.rs: transform_with_transmuted_*"]}
{"id": "C25", "title": "transmute_with_transformed acts per key", "statement": "The mirror image: the right map is transformed, left-only entries are transmuted.", "quantifier": "every pair of reachable maps and contract-abiding operations", "why_tests_cant": "all pairs of trie shapes", "anchors": ["src/node/cnode.rs: transmute_with_transformed_*", "src/node/lnode.rs: transmute_with_transformed_*", "src/node/snode.rs: transmute_with_transformed_*"]}
{"id": "C26", "title": "transmute_with_transmuted acts per key", "statement": "For each key the result holds exactly what both_op / left_op / right_op produced for it.", "quantifier": "every pair of reachable maps and contract-abiding operations", "why_tests_cant": "all pairs of trie shapes", "anchors": ["src/node/cnode.rs: transmute_with_transmuted_*", "src/node/lnode.rs: transmute_with_transmuted_*", "src/node/snode.rs: transmute_with_transmuted_*"]}
{"id": "C27", "title": "Set algebra", "statement": "With the obvious operations, joint operations on sets compute union, intersection, difference and symmetric difference.", "quantifier": "every pair of sets", "why_tests_cant": "all pairs of sets", "anchors": ["src/set.rs: HashTrieSet::transform_with_transformed", "examples/set_xor.rs"]}
{"id": "C28", "title": "Bit operations on flag words", "statement": "For each word width and every word: nth_bit(n) is the n-th single-bit word iff n is below the width, max_ones is the width and the largest number of members of a word, bit_insert/bit_remove/bit_merge/bit_contains act as set insertion/removal/disjoint union/membership with the documented errors, they undo each other, and bit_index is the number of members below the given one.", "quantifier": "every word and every width", "why_tests_cant": "2^128 words", "anchors": ["src/traits.rs: bit_contains, bit_index, bit_insert, bit_merge, bit_remove, nth_bit"]}
{"id": "C29", "title": "Bit-indexed array", "statement": "A bit-indexed array behaves as a partial map from bit positions to values: inserted, updated and removed change exactly the addressed position and error exactly when it is occupied/vacant; at and at_bit_index read it; iteration is in increasing bit order; construction rejects a length that disagrees with the bit count.", "quantifier": "every array, position and value", "why_tests_cant": "all occupancy patterns", "anchors": ["src/bit_indexed_array.rs: new_bit_indexed_array, at, at_bit_index, inserted, updated, removed, iter"]}
{"id": "C30", "title": "Hash narrowing", "statement": "Hashing a key into an H-bit word never panics.", "quantifier": "every hasher, key and H in u8,u16,u32,u64", "why_tests_cant": "depends on the hasher's 64-bit output", "anchors": ["src/traits.rs: HasherBv, hasher_bv_impl"]}
{"id": "C31", "title": "Equality of tries", "statement": "`==` on tries is reflexive, symmetric and transitive, holds between a map and its clone, and two equal tries have the same contents; an Unchanged bulk transform returns an equal trie, while a successful insert or remove never does.", "quantifier": "every history of new, clone, insert, remove and transform calls on any number of maps", "why_tests_cant": "all histories", "anchors": ["src/hash_trie.rs: PartialEq for HashTrie", "src/node/mnode.rs: PartialEq for MNode", "src/node/cnode.rs: PartialEq for CNode"]}
{"id": "C32", "title": "Insertion order does not matter", "statement": "Inserting entries with pairwise distinct keys in any order yields maps that answer every find identically and have equal size; inserting a fresh key then removing it yields a map that answers as the original.", "quantifier": "every permutation and every starting map", "why_tests_cant": "all permutations", "anchors": ["src/hash_trie.rs: insert, remove"]}
{"id": "C33", "title": "Bulk Unchanged and Removed", "statement": "`transform` with bulk Unchanged(r) returns a map with the same contents (sharing the root) and r; with bulk Removed(r) it returns an empty map and r; transmute with bulk Removed(r) likewise.", "quantifier": "every map, r and strategy", "why_tests_cant": "all maps", "anchors": ["src/node/cnode.rs: transform, transmute", "src/node/lnode.rs: transform, transmute", "src/node/snode.rs: transform, transmute"]}
{"id": "C34", "title": "Joint operations reduce each key's contribution", "statement": "For a commutative monoid, the reduction of a joint operation with generic operations is the combination, over distinct keys of the two maps, of the operation's contribution for that key (each consulted once).", "quantifier": "every pair of maps, operations and commutative monoid", "why_tests_cant": "all pairs of trie shapes", "anchors": ["src/node/cnode.rs: *_cnode_impl", "src/node/lnode.rs: *_lnode_impl"]}
{"id": "C35", "title": "Transfute variants keep keys", "statement": "`transform_with_transfuted` and `transfute_with_transformed` never alter a key: each entry of the result is stored under a key object found in one of the inputs, with the value determined by the per-key rule.", "quantifier": "every pair of maps", "why_tests_cant": "all pairs", "anchors": ["src/map.rs: transform_with_transfuted, transfute_with_transformed"]}
{"id": "C36", "title": "Sets are maps to unit", "statement": "Every HashTrieSet operation returns what the HashTrieMap operation with unit values returns, with the values dropped.", "quantifier": "every history of set operations", "why_tests_cant": "all histories", "anchors": ["src/set.rs: HashTrieSet"]}
{"id": "C37", "title": "Bounded depth", "statement": "No reachable trie is deeper than ceil(hash width / log2 branching) branching levels plus one leaf, so lookups inspect at most that many branch nodes plus one leaf.", "quantifier": "every reachable map", "why_tests_cant": "all histories and hash functions", "anchors": ["src/flag.rs: new_at_depth", "src/node/cnode.rs: lift_to_cnode_and_insert"]}
{"id": "C38", "title": "Heterogeneous lookup keys", "statement": "Using a borrowed/foreign key type that hashes alike and compares equal to exactly the keys its owned conversion equals gives the same results as using the owned key, for find, remove and insert.", "quantifier": "every map and every foreign key type respecting the contract", "why_tests_cant": "all key types", "anchors": ["src/map.rs: find, insert, remove type parameters L: HashLike<K>, K: PartialEq<L>"]}
{"id": "C39", "title": "Equal contents reached differently are interchangeable", "statement": "Any two maps that answer every find alike (however they were built, even with different hash functions and branching factors) give equal results for every further history of insert, remove, find, size and visit. (Joint operations: C45.)", "quantifier": "every pair of observationally equal maps and every continuation", "why_tests_cant": "trie shapes differ for the same contents (wrapped chains after removal, list order)", "anchors": ["src/node/cnode.rs: remove (chains are not collapsed)", "src/node/lnode.rs: insert (moves to front)"]}
{"id": "C40", "title": "Reductions have no influence on the map", "statement": "Two bulk or joint calls whose operations give the same answers except for the reductions they contribute return the same map (or both panic, or both fail to return), whatever the reduction types, reduce functions, defaults and parallelism strategies; a homomorphism between reductions carries one call's reduction to the other's.", "quantifier": "every map or pair of maps, every pair of operations that differ only in reductions, every reduce function (associative or not) and strategy", "why_tests_cant": "ranges over all reduction types, reduce functions and trees", "anchors": ["src/node/cnode.rs: transform, transmute, transform_with_transformed, transform_with_transmuted, transmute_with_transformed, transmute_with_transmuted", "src/results.rs: TransformResult, TransmuteResult, JointTransformResult"]}
{"id": "C41", "title": "Flipping an operation and exchanging the maps", "statement": "The public flip functions make an operation respond correctly to exchanged arguments: the flipped operation's answer about exchanged entries is the mirror image of the answer, and flipping twice restores the operation. Consequently a joint operation on exchanged maps with flipped operations returns exactly when the original does (transform_with_transmuted vs transmute_with_transformed) and then yields the same contents and, for a commutative monoid, the same reduction.", "quantifier": "all operations (closures and bulk), all entries, all pairs of reachable maps", "why_tests_cant": "quantifies over all operations, maps and hash collisions", "anchors": ["src/transformations.rs: MapJointTransform::flip, SetJointTransform::flip, flip_transform_transmute, flip_transmute_transform, flip_transmute, MapTransmute::flip, SetTransmute::flip", "src/results.rs: flip"]}
{"id": "C42", "title": "Insert and remove copy only one path", "statement": "An insert or a remove allocates at most ceil(w/b) + N new shared objects, where w is the number of hash bits, b the bits consumed per level and N bounds the number of entries that have any one hash; every other object of the new map is shared with the source map, which is itself left as it was.", "quantifier": "every reachable map, key and value, every word width and branching factor", "why_tests_cant": "a cost bound over all maps of all sizes and depths", "anchors": ["src/node/cnode.rs: insert, remove", "src/node/lnode.rs: insert, remove, remove_spinal_collision", "src/node/snode.rs: insert, remove"]}
{"id": "C43", "title": "Returned pointers are into the new map", "statement": "The pointers returned by a successful insert point at a key and value held in an object of the returned map with the given contents; the object belongs to no older map, and no other object of any live map has its address.", "quantifier": "every history of maps sharing structure and every insert on one of them", "why_tests_cant": "ranges over all histories with structure sharing", "anchors": ["src/hash_trie.rs: insert, find", "src/node/lnode.rs: insert", "src/node/snode.rs: new"]}
{"id": "C44", "title": "Arrays are built without exposing uninitialised memory", "statement": "Every construction of a child array (from a vector, by insertion, update or removal) either reports an error before taking memory or returns an array whose every slot was written exactly once with the intended value; no panic ever unwinds through an array with unwritten slots.", "quantifier": "every bit word of at most 128 bits, every array returned by an operation, every value list and bit argument", "why_tests_cant": "memory safety of unsafe code must hold for all sizes and call patterns; uninitialised reads need not show in a test", "anchors": ["src/bit_indexed_array.rs: BitIndexedArrayImpl::new, new_bit_indexed_array, BitIndexedArrayInsert, BitIndexedArrayUpdate, BitIndexedArrayRemove, BitIndexedArrayVec"]}
{"id": "C45", "title": "Joint operations see the contents only", "statement": "Two calls of a joint operation with the same operations, on maps that answer every find alike pairwise, both return or both do not; the results answer every find alike, have equal sizes and, for a commutative monoid, equal reductions.", "quantifier": "every two pairs of observationally equal reachable maps, all operations (within the documented contract), all reductions, both strategies", "why_tests_cant": "equal contents are represented by tries of unboundedly many shapes (uncollapsed chains after removals, list orders), and the order of operands handed down depends on the shapes", "anchors": ["src/node/cnode.rs: remove, transform_with_transformed, transmute_with_transmuted", "src/node/lnode.rs: transform_with_transformed, transmute_with_transmuted, *_lnode"]}
{"id": "C46", "title": "A bulk operation means the constant closure", "statement": "Giving a bulk operation (Unchanged, Removed, UnchangedL, ...) to transform, transmute or a joint operation has the effect of giving the closure that answers every entry so: the calls both return or both do not, the results answer every find alike and have equal sizes, and, when the bulk operations carry the identity of a (commutative) monoid, the reductions are equal.", "quantifier": "all reachable maps, all operations (within the documented contract), all reductions, both strategies", "why_tests_cant": "bulk operations take short cuts at every level of the trie; the equivalence must hold for all pairs of shapes and all mixtures of bulk operations and closures", "anchors": ["src/transformations.rs: MapTransform, MapTransmute, MapJointTransform", "src/node/cnode.rs: transform, transmute, transform_with_transmuted, transform_with_transformed", "src/node/lnode.rs: transform, transmute"]}
{"id": "C47", "title": "The transforming and the transmuting functions agree", "statement": "Given the same instructions about entries (keep it, give it a new value, remove it; to keep an entry is to transmute it to its own key and value), transform and transmute give the same map and reduction, and so do transform_with_transformed, transform_with_transmuted, transmute_with_transformed and transmute_with_transmuted: they return together, find the same keys with the same values, have equal sizes and, for a commutative monoid, equal reductions.", "quantifier": "all reachable maps, all instructions, all reductions, both strategies", "why_tests_cant": "The crate's own tests compare the four functions on one random pair of maps; agreement must hold for every pair of tries, every combination of node kinds and collisions, and every instruction.", "anchors": ["src/hash_trie.rs: transform, transmute, transform_with_transformed, transform_with_transmuted, transmute_with_transformed, transmute_with_transmuted", "src/set.rs: set_joint_transformations", "src/map.rs: map_joint_transformations"]}
{"id": "C48", "title": "Exactly which calls panic in an overflow-checked build", "statement": "In a build with arithmetic overflow checks, on a map obtained from new() by insert and remove calls, inserting or removing a key panics exactly when the map holds an entry whose key has the same hash and another entry whose hash differs from it only in the last group of log2(branching factor) bits; every other call returns the answer of the finite map. On maps obtained in any way (bulk and two-map functions included) the stated condition always panics, and no call whose key's hash is not stored panics.", "quantifier": "every history on any versions, key type, hasher, word widths, lookup keys of a foreign type", "why_tests_cant": "the panic needs hashes that agree on all but the last bits; absence of panics elsewhere is a claim about all maps", "anchors": ["src/flag.rs: new_at_depth, next", "src/node/cnode.rs: insert, remove, lift_to_cnode_and_insert"]}
{"id": "C49", "title": "Every closure is called exactly once per entry or pair, whatever the closures do", "statement": "transform and transmute call their closure exactly once with each entry of the map and with nothing else; a joint operation calls the closure for an entry that is only in the left map once per such entry, the one for right-only entries once per such entry, and the one for pairs once per matching pair (parts that are bulk operations are not called). This holds for closures that keep state, whose answers depend on earlier calls; a call that is ended by a panicking or non-returning closure has made some of these calls, none twice, the unanswered one last; a call that returns has made all of them.", "quantifier": "all reachable maps, all operations, all stateful or partial closures, all answers, both parallelism strategies", "why_tests_cant": "closures are arbitrary effectful programs; duplicates or omissions may occur only for certain shapes, collisions and answers", "anchors": ["src/node/cnode.rs: transform_impl, transmute, transform_with_transformed_cnode, ...", "src/node/lnode.rs: all joint functions", "src/node/snode.rs", "src/transformations.rs: call"]}
{"id": "C50", "title": "The outcome depends only on what the closures answered", "statement": "For closures that keep state or have effects, the outcome of transform, transmute and each joint operation (the returned map and reduction, or the panic, or not returning) is the outcome of the same call with pure functions that give the answers the closures gave; such functions always exist. So everything proved for pure closures (contents, sizes, reductions, termination) holds for arbitrary ones, and a closure that panics ends the call at once.", "quantifier": "all histories, all operations, all stateful or partial closures, both parallelism strategies", "why_tests_cant": "quantifies over arbitrary effectful closures", "anchors": ["src/map.rs: transform, transmute, transform_with_transformed, ...", "src/hash_trie.rs", "src/node/*.rs"]}
{"id": "C51", "title": "Results share structure only with their operands", "statement": "Every heap object of a map returned by transform, transform_with_transmuted, transmute_with_transformed or transform_with_transformed is an object of an operand of the result's type or was allocated by this call; every object of a map returned by transmute or transmute_with_transmuted was allocated by this call. Histories include all of these calls, with arbitrary closures.", "quantifier": "all histories, all operations, all closures", "why_tests_cant": "aliasing depends on the whole history of calls and the shapes of both tries", "anchors": ["src/node/cnode.rs", "src/node/lnode.rs", "src/hash_trie.rs"]}
{"id": "C52", "title": "A call that changes nothing returns an equal map", "statement": "If a call of transform or of a joint operation that keeps a map (transform_with_transmuted, transmute_with_transformed, transform_with_transformed) is answered so that every entry of an operand is kept and no entry is added, the returned map compares equal (==) to that operand; transform returns an equal map only then.", "quantifier": "all histories, all closures (also stateful)", "why_tests_cant": "identity of the result depends on shapes, collisions and every answer", "anchors": ["src/node/cnode.rs: transform_impl, transform_with_transmuted_cnode (591-682), transmute_with_transformed_cnode, transform_with_transformed_cnode", "src/hash_trie.rs: PartialEq"]}
{"id": "C53", "title": "The calls of closures do not depend on their answers", "statement": "Two calls of the same operation on the same maps, with closures in the same places, call the closures with the same arguments in the same order until one of the two ends, whatever the closures answer and whatever their state, the reduction (and its type), the parallelism strategy and the state of the memory: the shorter sequence of calls is a beginning of the longer, and if both return the sequences are equal.", "quantifier": "all maps (of any history or not), all six bulk and joint operations, all pairs of stateful or partial closures, reductions and strategies", "why_tests_cant": "relates pairs of executions with arbitrary effectful closures", "anchors": ["src/node/cnode.rs", "src/node/lnode.rs", "src/node/snode.rs", "src/hash_trie.rs"]}
{"id": "C54", "title": "The parallelism strategy is not observable even by stateful closures", "statement": "With the same closures, which may keep state or fail, started in the same state: if transform, transform_with_transmuted, transmute_with_transformed or transform_with_transformed returns with one parallelism strategy, it returns with any other, having made the same calls with the same answers, leaving the closures in the same state and giving the same map; and the same reduction if the reduction is a monoid.", "quantifier": "all histories, all closures, both strategies", "why_tests_cant": "relates pairs of executions over arbitrary closures and histories", "anchors": ["src/node/cnode.rs: transform (118-222), transform_with_transmuted_cnode, join!", "src/enums.rs: ParallelismStrategy"]}
{"id": "C55", "title": "Order of the calls of transform and transmute", "statement": "transform and transmute call the closure in the order in which visit lists the entries, with any strategy and also when a closure stops the call early, except that keys whose hashes are equal come in the opposite order; with no two keys of equal hash, a call that returns has called the closure exactly with visit's sequence.", "quantifier": "all histories, all closures, both strategies", "why_tests_cant": "ranges over all tries, collisions and closures", "anchors": ["src/node/cnode.rs: transform_impl, transmute", "src/node/lnode.rs: transform, transmute", "src/map.rs: visit"]}
{"id": "C56", "title": "Threads and the allocator have no influence", "statement": "When several threads use the library at once, each on its own maps and on maps shared by reference (or clones), a thread is told by its calls (find, size, visit, ==, insert, remove, transform, transmute, the joint operations, their closures' calls, their reductions) exactly what it is told when it runs alone, and ends with the same contents in the maps it can see: whatever the other threads do, however the calls interleave, and wherever the allocator places nodes, including at addresses of nodes of dropped maps. No call has to wait for another thread.", "quantifier": "all thread programs (the next call may depend on everything the thread was told), all interleavings, all choices of addresses, all initial maps, closures with state that may panic or not return", "why_tests_cant": "ranges over all schedules and all allocator behaviours", "anchors": ["src/hash_trie.rs: HashTrie, PartialEq", "src/node/mnode.rs: PartialEq, Clone", "src/map.rs: HashTrieMap", "src/node/snode.rs: SNode::new", "src/node/lnode.rs: LNode::new", "src/node/cnode.rs: CNode::new"]}
{"id": "C57", "title": "Reductions without laws", "statement": "Whatever reduce_op and Default are (no associativity, commutativity or identity), the reduction returned by transform, transmute or a joint operation is made by reduce_op from what the closures contributed, each contribution used exactly once (in visit order for transform and transmute), and copies of the default. Hence any condition that holds of the default and of all contributions and is preserved by reduce_op holds of the reduction, for every parallelism strategy and also with bulk operations.", "quantifier": "every map or pair of maps, every closures, every reduction type, reduce_op and default, both strategies", "why_tests_cant": "a test fixes a reduce_op and a shape; the bracketing and the number of defaults depend on shape and strategy", "anchors": ["src/node/cnode.rs: transform, *_cnode_impl", "src/node/lnode.rs: transform, *_lnode_impl", "src/hash_trie.rs: transform"]}
{"id": "C58", "title": "Keys whose == obeys no law", "statement": "If keys that compare equal have the same hash, nothing else about == matters for safety (it need not be reflexive, symmetric or transitive, as with floating-point keys or a wrong impl; a transmute may make keys equal): find, insert, remove, transform and transmute still never panic (overflow checks apart, C14), size is the number of entries visited, find returns the first visited entry that compares equal, insert adds the entry and takes away at most the entry find returns, remove takes away exactly that one, and no other entry is lost or duplicated.", "quantifier": "all key types with any == (that respects hashes), any lookup-key comparison, all histories of new, insert, remove, transform and transmute", "why_tests_cant": "ranges over all equality relations and all histories", "anchors": ["src/traits.rs: Key, HashLike", "src/node/lnode.rs: insert, remove_from_lnode", "src/node/snode.rs: insert, remove", "src/node/cnode.rs: insert, remove, find"]}
{"id": "C59", "title": "What find, insert and remove ask of the keys' own code", "statement": "find and remove hash the lookup key once, then compare it with the entries of a single group of colliding entries, in visit order, until == says yes, and stop there; remove then clones only the entries of that group before the hit; insert does the same, hashes at most one stored key, converts key and value at most once, and when it replaces in a group of several entries searches that group a second time. The number of == calls is at most the size of the largest group of colliding entries (twice that for insert). However == answers (statefully, inconsistently) and whenever any of these calls panics or never returns, find and remove themselves never panic in a build without overflow checks, and insert panics only if it is replacing and == said both yes and no of the same key during the call; what is returned is the entry == said yes to, and the new map has exactly the other entries.", "quantifier": "all maps a program can build with such keys (right hashes, arbitrary stateful ==), all lookups, all answers and panics of the key code", "why_tests_cant": "ranges over all behaviours of user code at every call, including stateful and panicking ones", "anchors": ["src/hash_trie.rs: find, insert, remove", "src/node/lnode.rs: find, insert, remove_from_lnode, lift_to_cnode_and_insert", "src/node/snode.rs: find, insert, remove", "src/node/cnode.rs: find, insert, remove"]}
{"id": "C60", "title": "Memory is released exactly when it should be", "statement": "At any time, after any calls of any threads, what is allocated is exactly the nodes of the maps that are held somewhere: no node of a map in use is ever freed, changed or overwritten, whatever is dropped or made since; no reference is dropped twice or cloned after its node was freed; dropping or overwriting a map frees exactly the nodes that no other map shares; when no map is left everything is freed. Every reference count is the number of references there are.", "quantifier": "all thread programs, all interleavings, all ownerships of variables, all choices of addresses by an allocator that knows only what is allocated (freed addresses are reused), all closures (with state, panicking, not returning)", "why_tests_cant": "ranges over all histories of sharing, dropping and address reuse", "anchors": ["src/node/mnode.rs: MNode, Clone", "src/node/lnode.rs: LNode::new, LNodeNext", "src/node/snode.rs: SNode::new", "src/bit_indexed_array.rs: new_bit_indexed_array", "src/hash_trie.rs: HashTrie, Clone"]}
{"id": "C61", "title": "Joint functions compare only keys of equal hash", "statement": "Whatever the operations, the outcome of a joint function (map and reduction, panic, divergence) depends on == between keys of the two maps only for pairs of a left and a right key with equal hash: replacing == (and the hash) by anything that answers alike for those pairs changes nothing. So == between two key types need not respect the hashes: keys of different hash count as different whatever == says, and read that way the results of the joint functions are right.", "quantifier": "all pairs of maps a program can build, all comparisons and hashes of the keys of one with those of the other (no laws assumed), all operations", "why_tests_cant": "ranges over all equality relations and all pairs of maps", "anchors": ["src/node/snode.rs: transform_with_transformed_snode, transform_with_transmuted_snode, transmute_with_transformed_snode, transmute_with_transmuted_snode", "src/node/lnode.rs: transform_with_transformed_lnode, transform_with_transmuted_lnode, transmute_with_transformed_lnode, transmute_with_transmuted_lnode", "src/hash_trie.rs: transform_with_transformed, transform_with_transmuted, transmute_with_transformed, transmute_with_transmuted"]}
{"id": "C62", "title": "The order of visit", "statement": "Every map is visited in the order of the hashes of its keys (compared group of bits by group, least significant group first). A successful insertion places its entry after all entries of smaller hash and before all others - in particular before those of equal hash - and moves nothing else; a removal moves nothing. Hence in any history of insertions and removals each visit shows exactly the entries of its version ordered by hash, entries of equal hash with the one inserted last first. Two maps with the same entries show the same sequence of hashes, however they were made, and the same sequence of entries if no two of their keys have equal hash (with equal hashes they may differ).", "quantifier": "all maps a program can build by any operations, all histories of insertions and removals on any versions, all hash functions, widths and branchings", "why_tests_cant": "ranges over all histories, contents and hash functions", "anchors": ["src/hash_trie.rs: HashTrie::visit, HashTrie::insert, HashTrie::remove", "src/node/cnode.rs: CNode::visit, lift_to_cnode_and_insert, insert", "src/node/lnode.rs: LNode::visit, LNode::insert, LNode::new, remove", "src/node/snode.rs: SNode::visit, insert"]}
{"id": "C63", "title": "Which joint calls return is decided by the contents, for maps made by insertions", "statement": "Let both maps be made from new() by insertions. A call of transform_with_transformed or transmute_with_transmuted with a closure for the pairs does not return if and only if for some hash one map holds at least two and the other at least three keys of that hash; it is the left map that must hold three if the right map has other keys agreeing with that hash in more groups of low bits (at least one) than any other key on the left, and the right map otherwise. So for such maps whether the call returns depends on the entries only, not on how the maps were made, and if it returns so do its contents and (for commutative reductions) its reduction. (For the other two joint functions the contents decide for all maps, C23.)", "quantifier": "all pairs of maps made by insertions with or without replacement in any order, all operations keeping their contract (for transform_with_transformed: tame answers; the direction 'never returns' for any answers)", "why_tests_cant": "a call that does not return cannot be tested, and the condition ranges over all contents, hash functions and insertion orders", "anchors": ["src/hash_trie.rs: transform_with_transformed, transmute_with_transmuted, insert", "src/node/lnode.rs: transform_with_transformed_lnode, transmute_with_transmuted_lnode", "src/node/cnode.rs: lift_to_cnode_and_insert, transform_with_transformed_lnode, transmute_with_transmuted_lnode"]}
{"id": "C64", "title": "A map made by insertions is determined by what visit shows", "statement": "Two maps made from new() by insertions that show the same sequence of entries to visit are structurally equal, so that every later call on them does the same. If no two keys have equal hash, equal contents suffice: inserting the same entries in any order, with or without replacements on the way, gives structurally equal maps. After removals this fails.", "quantifier": "all maps made by insertions, all orders, all hash functions, widths and branchings", "why_tests_cant": "ranges over all insertion orders and contents", "anchors": ["src/hash_trie.rs: HashTrie::new, HashTrie::insert, HashTrie::visit", "src/node/cnode.rs: CNode::insert, lift_to_cnode_and_insert", "src/node/lnode.rs: LNode::insert", "src/node/snode.rs: SNode::insert"]}
{"id": "C65", "title": "Keys whose code answers anything do no worse than get lost", "statement": "Let the hashes and == of the keys answer anything whenever they are called (contradicting each other, changing, a lookup form hashing differently from the stored form), and let transmute closures keep no contract. Still every map made by new, insert, remove, transform, transmute and the joint operations has size() equal to the number of entries visit shows; find, insert and remove always end (unless the keys' code panics or hangs) and find and remove never panic in a build without overflow checks; find and remove return an entry only if it is in the map and == said yes to it during the call, and nothing only if == never said yes; remove takes exactly that entry out and keeps the order of the others; insert adds exactly its entry, dropping at most the one it returns. insert panics only if == contradicted itself on one key, or if it cannot tell two keys apart by the hashes it was given (and that does happen with lying hashes). transform and transmute return and show what the closure made of each entry, in order.", "quantifier": "all histories of these operations, all answers of the keys' code at every call, all closures, all widths and branchings, both builds", "why_tests_cant": "ranges over every sequence of answers of arbitrary user code and every history", "anchors": ["src/hash_trie.rs: HashTrie::find, insert, remove, transform, transmute, visit, size", "src/node/cnode.rs: CNode::insert, CNode::remove, lift_to_cnode_and_insert", "src/node/lnode.rs: LNode::insert, LNode::remove, remove_from_lnode, lift_to_cnode_and_insert", "src/node/snode.rs", "src/flag.rs: Flag::new_at_depth"]}
{"id": "C66", "title": "Entries stay where they are", "statement": "find, and insert, return references to an entry inside the map. An insertion's reference is the place where lookup of the key finds it from then on in the new version. In the new version made by insert or remove, every key with another hash is found at the same address as in the old one, and so is every other key at all if insert replaced nothing; transform leaves the entry of a key in place if the closure answers Unchanged for all entries with its hash; transform_with_transmuted, transmute_with_transformed and transform_with_transformed leave in place an entry they keep (Unchanged, UnchangedL or UnchangedR) if no other key of either map has its hash, and a key for which transform_with_transformed keeps one of the two entries is found where it was in one of the maps. Of keys that share a hash, removing or replacing one does move others (shown by a witness).", "quantifier": "all maps made by the API with their memory, all keys, all closures with any state, all widths and branchings, both builds", "why_tests_cant": "addresses of all entries after every operation on every trie shape", "anchors": ["src/node/snode.rs:31-38", "src/node/lnode.rs:75-85", "src/node/mnode.rs:22-31", "src/node/cnode.rs:24-33", "src/hash_trie.rs:29-34", "src/map.rs:88 HashTrieMap::find", "src/set.rs:86 HashTrieSet::find"]}
{"id": "C67", "title": "Sets and transfute functions with stateful or failing closures", "statement": "The set functions transform, transmute, transform_with_transmuted, transmute_with_transformed, transmute_with_transmuted and transform_with_transformed, and the map functions transform_with_transfuted and transfute_with_transformed, call the closure for a part of the operation exactly once for each key (or pair of equal keys, or key without a partner in the other set) that part is for, and never for anything else or where the part is a bulk operation, whatever the closures answer and whatever state they keep. If a closure panics or does not return, the call ends there. Otherwise the outcome, the set and the reduction, is the one the function has with any pure functions that answer what the closures answered. Sets so made are sets like any other.", "quantifier": "all sets and maps made by the API, all closures with any state, panics at any call, all reductions, all widths and branchings, both builds", "why_tests_cant": "closures are arbitrary stateful programs; the sequence of calls depends on every trie shape", "anchors": ["src/set.rs:107-288", "src/map.rs:120-270 transform_with_transfuted, transfute_with_transformed", "src/transformations.rs"]}
{"id": "C68", "title": "Order of closure calls and strategies, for sets and transfute functions", "statement": "Which closures a set function or a transfute function calls, with which arguments and in which order, does not depend on what they answer, on their state, on the reduction, on the parallelism strategy or on memory: of two such calls on the same operands whose operations have closures and bulk operations in the same places, one makes the calls of the other up to where one of them ends early. With another strategy a call that returns returns again, after the same calls and replies, leaving the closures in the same state, with the same set, and with the same reduction if the reduction is a monoid. The set functions transform and transmute call the closure in the order of visit, except that keys of equal hash come in the opposite order.", "quantifier": "all sets and maps made by the API, all pairs of stateful closures, all reductions and strategies, all widths and branchings", "why_tests_cant": "relates arbitrary pairs of runs with arbitrary stateful closures", "anchors": ["src/set.rs:112-292", "src/map.rs:159-224", "src/node/cnode.rs"]}
{"id": "C69", "title": "Constructed operations and the usual recipes", "statement": "Operations made by the new_* constructors answer what their documentation says (generic: the closure's answer to the same arguments in the same order; others: always the same). With them: transform with a predicate answered by Unchanged(1)/Removed(0) and + returns the entries satisfying it, in order, and how many they are; with Transformed it changes every value and nothing else; with Unchanged it leaves the contents and folds the map; the bulk forms keep the very map or empty it. transform_with_transmuted restricts a map to, or excludes from it, the keys of another, the two parts making up the map, or updates its values from the other; transmute_with_transmuted joins two maps; transform_with_transformed with Transformed for pairs and Unchanged otherwise merges two maps without panicking. (Joint functions: whenever they return, see C23.)", "quantifier": "all reachable maps, predicates, functions, monoids and strategies, all widths and branchings", "why_tests_cant": "all maps, shapes and functions", "anchors": ["src/transformations.rs: new_map_joint_transform_generic … new_set_transmute_transmute_removed", "src/map.rs: transform, transform_with_transmuted, transmute_with_transmuted, transform_with_transformed", "src/set.rs: transform"]}
{"id": "C70", "title": "Expressions over sets obey Boolean algebra; maps laid over one another", "statement": "Nested calls of transform_with_transformed on sets that perform unions, intersections, differences and symmetric differences (with bulk operations or closures, either strategy) never panic; if they return, the result contains a key exactly if the expression, read as a statement about which sets contain the key, is true, so expressions equal by Boolean algebra yield sets with the same keys and size; the size is the number of such keys, |s∪t|+|s∩t| = |s|+|t|, |s∖t|+|s∩t| = |s|, |s△t|+2|s∩t| = |s|+|t|; and they do return if no two different keys share a hash. Maps merged one after another with the right value winning hold for each key the value of the last map that has it.", "quantifier": "all expressions, all reachable sets and maps, all suitable operations, strategies, widths and branchings", "why_tests_cant": "unboundedly many expressions, sets and intermediate results", "anchors": ["src/set.rs: transform_with_transformed", "src/map.rs: transform_with_transformed", "examples/set_xor.rs"]}
{"id": "C71", "title": "Joint operations pair entries one-to-one whatever == and the hashes answer", "statement": "Let the hashes and == of both key types be arbitrary during a joint operation, unrelated to each other and to what they answered when the two maps were made, and let the closures keep no contract. If transform_with_transmuted, transmute_with_transformed or transmute_with_transmuted returns, some entries of the left map were paired with entries of the right map so that no entry is in two pairs and == said yes (from one side or the other) to each pair, and the result consists, as a multiset, of exactly what the closures made of the pairs and of the entries in no pair; no entry is dropped, duplicated or invented. The reduction is that of the same cases (for a commutative monoid), and size() is the number of entries visit shows and at most the sum of the two sizes. transform_with_transformed yields only entries of the two maps and keys of theirs with a value a closure made for them, a closure for pairs only being used on entries whose keys == said yes to; size() again equals the number of entries.", "quantifier": "all maps made by any history with any answers of the keys' code, all hash and == functions during the call, all closures and bulk operations, strategies, widths and branchings", "why_tests_cant": "ranges over arbitrary user equality and hash code and unbounded histories", "anchors": ["src/hash_trie.rs: transform_with_transmuted, transmute_with_transformed, transmute_with_transmuted, transform_with_transformed", "src/node/lnode.rs", "src/node/snode.rs", "src/node/cnode.rs"]}
{"id": "C72", "title": "Sets of keys whose code answers anything do no worse than get lost", "statement": "Let the hashes and == of the keys answer anything whenever they are called and let closures keep no contract. Every set made by any history of set operations has size() equal to the number of keys visit shows. find and remove return (unless the keys' code does not, or, for remove, in builds with overflow checks) a key of the set to which == said yes, or nothing, and then == did not say yes; remove takes exactly that key out and keeps the order of the others; insert adds exactly its key and drops at most the one it returns. transform and transmute return what the closure makes of each key, in order. If a joint operation returns, transform_with_transformed has made up no key, and the other three have paired keys one-to-one, == having said yes to each pair, and have in their result exactly what the closures made of the pairs and of the unpaired keys.", "quantifier": "all histories of set operations, all answers of the keys' code, all closures, strategies, widths and branchings", "why_tests_cant": "ranges over every sequence of answers of arbitrary user code and every history", "anchors": ["src/set.rs: HashTrieSet"]}
