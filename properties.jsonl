{"id": "C01", "title": "RangeMap::insert is a pointwise overwrite", "statement": "After insert(a..b, v) on a map m (a<b), get(k) is v for every a<=k<b, and for every other key k get(k) is what it was before (exactly, when == on values is equality; in general the same value or one that compares == to it because its range was coalesced with the new one).", "quantifier": "every map reachable through the API, every non-empty range, every value, every key, over any totally ordered key type (incl. dense ones and ones whose Ord identifies distinct keys)", "why_tests_cant": "infinitely many maps, ranges and key types; the insertion code has many interacting boundary cases (two candidates on the left, right remnants, adoption extending the end)", "anchors": ["/repo/src/map.rs: RangeMap::insert (261-363), adjust_touching_ranges_for_insert (439-488)", "/repo/src/std_ext.rs: RangeExt (3-6, 8-25)"]}
{"id": "C02", "title": "RangeMap::remove is a pointwise erase", "statement": "After remove(a..b) (a<b), get(k) is None for every a<=k<b and unchanged for every other key.", "quantifier": "every reachable map, every non-empty range, every key", "why_tests_cant": "the removed range can straddle, split or swallow any number of stored ranges", "anchors": ["/repo/src/map.rs: RangeMap::remove (375-437), adjust_overlapping_ranges_for_remove (490-514)"]}
{"id": "C03", "title": "RangeMap refines a plain key->value map over any history", "statement": "Starting from an empty map, after any sequence of insert / remove / clear / extend calls (calls with an invalid range panic and, caught, change nothing), get(k) equals the value written by the last operation covering k, if that operation was an insert, and None otherwise.", "quantifier": "every finite history of operations, every key", "why_tests_cant": "quantifies over unbounded histories", "anchors": ["/repo/src/map.rs: insert (261-363), remove (375-437), clear (129-131), Extend (622-632), get (157-159)"]}
{"id": "C04", "title": "RangeMap stores sorted, disjoint, non-empty ranges", "statement": "At every moment between calls, iter() yields ranges r1, r2, ... with start<end in each and each ending at or before the start of the next; so both the starts and the ends are strictly increasing (this is the condition under which the by-end lookup through the Borrow trick agrees with the by-start order of the tree).", "quantifier": "every reachable map", "why_tests_cant": "an invariant over all histories; a violation silently corrupts BTreeMap lookups", "anchors": ["/repo/src/map.rs: insert (261-363), remove (375-437), iter (122-126)", "/repo/src/range_wrapper.rs: RangeStartWrapper (36-38), RangeEndWrapper (98-100), Borrow (77-81, 191-195)"]}
{"id": "C05", "title": "RangeMap is always fully coalesced", "statement": "No two ranges yielded by iter() that touch (one's end equals the other's start) carry values that compare ==.", "quantifier": "every reachable map", "why_tests_cant": "coalescing must survive every order of insertions, overwrites and removals", "anchors": ["/repo/src/map.rs: insert (261-363)", "/repo/fuzz/fuzz_targets/rangemap_coalesce.rs"]}
{"id": "C06", "title": "RangeMap representation is canonical", "statement": "Two maps are == exactly when get agrees (==) on every key; hence the stored ranges depend only on the contents, not on the history that produced them.", "quantifier": "every pair of reachable maps, value types with reflexive ==", "why_tests_cant": "pairs of unbounded histories", "anchors": ["/repo/src/map.rs: PartialEq for RangeMap (54-62), get (157-159)"]}
{"id": "C07", "title": "RangeMap panic contract", "statement": "insert and remove panic exactly when start >= end, in which case the map is left unchanged; with a non-empty range they never panic, in particular no BTreeMap::range call is ever made with inverted bounds. get, get_key_value, contains_key, gaps, overlapping, overlaps never panic, for any argument.", "quantifier": "every reachable map, every argument (including empty and inverted ranges)", "why_tests_cant": "absence of panics must hold for all states", "anchors": ["/repo/src/map.rs: insert (261-363), remove (375-437), get_key_value (163-176), gaps (192-199), overlapping (203-218)"]}
{"id": "C08", "title": "RangeMap insert/remove terminate within len+2 loop iterations", "statement": "The while-let loops of insert and remove stop after at most len()+2 iterations, for every reachable map and argument.", "quantifier": "every reachable map, every range and value", "why_tests_cant": "the source itself warns of looping forever if the loop is handed an irrelevant range; non-termination is not testable", "anchors": ["/repo/src/map.rs: insert (loop) (261-363), remove (loop) (375-437)"]}
{"id": "C09", "title": "RangeMap lookups return the unique covering entry", "statement": "get_key_value(k) returns Some((r,v)) iff (r,v) is an entry yielded by iter() whose range contains k; at most one entry does; get and contains_key are its projections.", "quantifier": "every reachable map, every key", "why_tests_cant": "only the last range starting at or before k is examined; correctness needs the invariant on all states", "anchors": ["/repo/src/map.rs: get_key_value (163-176), get (157-159), contains_key (179-181)"]}
{"id": "C10", "title": "RangeMap::gaps yields exactly the uncovered keys", "statement": "A key k lies in one of the ranges yielded by gaps(outer) iff k lies in outer and get(k) is None.", "quantifier": "every reachable map, every outer range (also empty or inverted), every key", "why_tests_cant": "unbounded", "anchors": ["/repo/src/map.rs: gaps (192-199), Gaps::next (728-761)", "/repo/fuzz/fuzz_targets/rangemap_gaps.rs"]}
{"id": "C11", "title": "RangeMap::gaps yields non-empty, ordered, maximal ranges", "statement": "Every range yielded by gaps(outer) is non-empty and within outer; they come in increasing order with covered keys between consecutive ones, so each is maximal; an outer range with start >= end yields nothing (contrary to the doc comment, which promises a single empty gap when start == end).", "quantifier": "every reachable map, every outer range", "why_tests_cant": "unbounded; the documented behaviour for an empty outer range is contradicted by the code for every map", "anchors": ["/repo/src/map.rs: gaps (192-199), Gaps::next (728-761)"]}
{"id": "C12", "title": "Stored entries and gaps tile the outer range", "statement": "For a non-empty outer range, the ranges yielded by overlapping(outer), clipped to outer, together with those yielded by gaps(outer), sorted by start, start at outer.start, end at outer.end, and each begins where the previous one ends.", "quantifier": "every reachable map, every non-empty outer range", "why_tests_cant": "fuzzing samples u8 maps only", "anchors": ["/repo/src/map.rs: gaps (192-199), overlapping (203-218)", "/repo/fuzz/fuzz_targets/rangemap_gaps.rs"]}
{"id": "C13", "title": "RangeMap::overlapping yields exactly the overlapping entries in order", "statement": "overlapping(q) yields, in iter() order, exactly the entries (r,v) with r.end > q.start and r.start < q.end; for non-empty q these are exactly the entries sharing a key with q. overlaps(q) is true iff there is one.", "quantifier": "every reachable map, every query range", "why_tests_cant": "the lookup goes through a Borrow implementation that deliberately breaks the Borrow law, so it is right only if ends are ordered like starts in every state", "anchors": ["/repo/src/map.rs: overlapping (203-218), Overlapping (773-776), overlaps (222-224)", "/repo/src/range_wrapper.rs"]}
{"id": "C14", "title": "Overlapping is a correct double-ended fused iterator", "statement": "For any interleaving of next() and next_back() calls on overlapping(q), next() returns the not yet returned overlapping entries from the front, next_back() from the back, no entry is returned twice or skipped, and once they are exhausted both return None forever.", "quantifier": "every reachable map (and inclusive map), query and every sequence of next/next_back calls", "why_tests_cant": "exponentially many interleavings", "anchors": ["/repo/src/map.rs: Overlapping::next (790-804), next_back", "/repo/src/inclusive_map.rs: Overlapping::next (906-920), next_back"]}
{"id": "C15", "title": "Gaps iterators are fused", "statement": "Once next() on a gaps iterator has returned None it returns None on every later call.", "quantifier": "every reachable (inclusive) map, outer range, number of calls", "why_tests_cant": "FusedIterator is an unchecked promise about all call sequences; the underlying cursor keeps consuming entries after the end", "anchors": ["/repo/src/map.rs: Gaps::next (728-761), FusedIterator (720, 779-782)", "/repo/src/inclusive_map.rs: Gaps::next (835-877), FusedIterator (821-826, 895-898)"]}
{"id": "C16", "title": "iter/into_iter, len, is_empty, first/last agree", "statement": "For any interleaving of next/next_back, iter() and into_iter() yield the entries once each in order from either end with an exact size_hint; len() is their number; is_empty() iff len()==0; first_range_value/last_range_value are the entries with the least/greatest range.", "quantifier": "every reachable map, every call sequence", "why_tests_cant": "all interleavings and states", "anchors": ["/repo/src/map.rs: Iter (525-527), IntoIter (567-569), len (134-136), is_empty (139-141), first_range_value (228-232), last_range_value (236-240)"]}
{"id": "C17", "title": "Eq and Hash agree", "statement": "If two maps are == then they feed the same data to the hasher (given the same for keys and values); == is an equivalence relation for reflexive value types.", "quantifier": "every pair of maps", "why_tests_cant": "pairs of unbounded states", "anchors": ["/repo/src/map.rs: Hash (41-52), PartialEq (54-62)", "/repo/src/inclusive_map.rs: Hash (54-65), PartialEq (67-75)"]}
{"id": "C18", "title": "Ord is a total order consistent with Eq", "statement": "cmp on maps is a total order (antisymmetric as orderings, transitive), cmp is Equal iff ==, and partial_cmp is Some(cmp).", "quantifier": "every pair/triple of maps; == against cmp for inclusive maps: no exhausted range stored (see C41)", "why_tests_cant": "triples of unbounded states", "anchors": ["/repo/src/map.rs: PartialOrd (64-73), Ord (75-84), expanded_iter (146-148)", "/repo/src/inclusive_map.rs: PartialOrd (84-93), Ord (95-104)"]}
{"id": "C19", "title": "extend / from_iter / From<[_;N]> equal repeated insert", "statement": "Building from a sequence of (range, value) pairs gives the map obtained by inserting them in order: for each key the last pair covering it wins; it panics iff some range in the sequence is empty/inverted.", "quantifier": "every sequence of pairs; inclusive containers: no exhausted range inserted (for those see C41, C84)", "why_tests_cant": "unbounded sequences", "anchors": ["/repo/src/map.rs: FromIterator (610-620), Extend (622-632), From<[(Range<K>,V);N]> (822-832)", "/repo/src/inclusive_map.rs: FromIterator (705-715), Extend (717-727), From (938-948)"]}
{"id": "C20", "title": "serde round trip and deserialisation safety", "statement": "Deserialising the serialised form of a map gives back exactly that map; the declared sequence length is right; deserialising arbitrary data gives the fold of inserts, so either a well-formed map, or the deserialiser's error, or a panic exactly when an empty/inverted range is met first.", "quantifier": "every reachable map; every input sequence; inclusive containers: no exhausted range inserted (for those see C41, C84)", "why_tests_cant": "unbounded", "anchors": ["/repo/src/map.rs: Serialize (635-651), Deserialize (654-665), RangeMapVisitor (668-670)", "/repo/src/inclusive_map.rs: Serialize (730-746), Deserialize (749-760), RangeInclusiveMapVisitor (763-765)"]}
{"id": "C21", "title": "RangeMap algebraic laws", "statement": "insert is idempotent; a later insert over the same or a larger range hides an earlier one; inserts/removes on disjoint ranges commute (results ==); remove after insert of the same range equals remove; inserting a stored entry again is a no-op.", "quantifier": "every reachable map, ranges, values", "why_tests_cant": "unbounded", "anchors": ["/repo/src/map.rs: insert (261-363), remove (375-437)"]}
{"id": "C22", "title": "Bounded growth", "statement": "One insert increases len() by at most 2, one remove by at most 1; after n inserts/removes len() <= 2n.", "quantifier": "every reachable map and argument", "why_tests_cant": "unbounded", "anchors": ["/repo/src/map.rs: insert (261-363), remove (375-437)", "/repo/src/inclusive_map.rs: insert (249-374), remove (386-460)"]}
{"id": "C23", "title": "RangeInclusiveMap::insert is a pointwise overwrite", "statement": "After insert(a..=b, v) (a<=b), get(k) is v for a<=k<=b and unchanged (up to == of coalesced values) elsewhere, for lawful successor/predecessor functions.", "quantifier": "every reachable map, every range with start<=end, every value and key, every key type with lawful step functions (finite or infinite domain); no exhausted range inserted (for those see C41, C84)", "why_tests_cant": "unbounded; boundary cases at the extremes of the key domain", "anchors": ["/repo/src/inclusive_map.rs: insert (249-374), adjust_touching_ranges_for_insert (462-514)", "/repo/src/std_ext.rs: RangeInclusiveExt (27-32, 34-68), StepFns (223-239, 241-252)"]}
{"id": "C24", "title": "RangeInclusiveMap::remove is a pointwise erase", "statement": "After remove(a..=b) (a<=b), get(k) is None for a<=k<=b and unchanged elsewhere.", "quantifier": "every reachable map, every range with start<=end, every key, lawful step functions; no exhausted range inserted before (for those see C41, C84)", "why_tests_cant": "unbounded", "anchors": ["/repo/src/inclusive_map.rs: remove (386-460), adjust_overlapping_ranges_for_remove (516-544)"]}
{"id": "C25", "title": "RangeInclusiveMap refines a plain map over any history", "statement": "Starting from an empty inclusive map, after any sequence of insert / remove / clear / extend calls (calls with start > end panic and, caught, change nothing), get(k) equals the value written by the last operation covering k, if that operation was an insert, and None otherwise (up to == of coalesced values; exactly if == is equality).", "quantifier": "every finite history, every key; no exhausted range inserted (for those see C41, C84)", "why_tests_cant": "unbounded histories", "anchors": ["/repo/src/inclusive_map.rs: insert (249-374), remove (386-460), clear (222-224), Extend (717-727), get (193-195)"]}
{"id": "C26", "title": "RangeInclusiveMap stores sorted disjoint ranges, fully coalesced", "statement": "iter() yields ranges with start<=end, each ending strictly before the start of the next, and if the next starts at the successor of the end the two values do not compare ==.", "quantifier": "every reachable map", "why_tests_cant": "invariant over all histories", "anchors": ["/repo/src/inclusive_map.rs: insert (249-374), remove (386-460)", "/repo/fuzz/fuzz_targets/rangemap_inclusive_coalesce.rs"]}
{"id": "C27", "title": "RangeInclusiveMap representation is canonical", "statement": "Two inclusive maps are == exactly when get agrees on every key.", "quantifier": "every pair of reachable maps; no exhausted range inserted (for those see C41, C84)", "why_tests_cant": "pairs of unbounded histories", "anchors": ["/repo/src/inclusive_map.rs: PartialEq (67-75), get (193-195)"]}
{"id": "C28", "title": "RangeInclusiveMap panic contract and no overflow at the extremes", "statement": "insert/remove panic exactly when start > end (map unchanged); otherwise nothing panics: add_one is never applied to the greatest key nor sub_one to the least key by any operation (insert, remove, gaps), whatever those would do there (panic, wrap or saturate).", "quantifier": "every reachable map, every argument, every lawful step functions with arbitrary behaviour at the extremes", "why_tests_cant": "the behaviour at the extremes must be excluded on every path of every state", "anchors": ["/repo/src/inclusive_map.rs: insert (249-374), remove (386-460), gaps (551-563), Gaps::next (835-877)", "/repo/src/std_ext.rs: RangeInclusiveExt::touches"]}
{"id": "C29", "title": "RangeInclusiveMap insert/remove terminate within len+2 loop iterations", "statement": "The while-let loops of the inclusive insert and remove stop after at most len()+2 iterations, for every reachable map and argument, although insert's loop searches a range of the B-tree that is unbounded above.", "quantifier": "every reachable map, range, value", "why_tests_cant": "non-termination is not testable", "anchors": ["/repo/src/inclusive_map.rs: insert (loop) (249-374), remove (loop) (386-460)"]}
{"id": "C30", "title": "RangeInclusiveMap lookups return the unique covering entry", "statement": "get_key_value(k) on an inclusive map returns Some((r,v)) iff (r,v) is an entry yielded by iter() whose range contains k; at most one entry does; get and contains_key are its projections.", "quantifier": "every reachable map, key; no exhausted range inserted (for those see C41, C84)", "why_tests_cant": "unbounded", "anchors": ["/repo/src/inclusive_map.rs: get_key_value (199-214), get (193-195), contains_key (217-219)"]}
{"id": "C31", "title": "RangeInclusiveMap::gaps yields exactly the uncovered keys as maximal ranges", "statement": "A key is in a yielded gap iff it is in outer and not covered; gaps are non-empty, ordered, separated by covered keys, within outer; an inverted outer range yields none.", "quantifier": "every reachable map, every outer range, every key; no exhausted range inserted (for those see C41, C84)", "why_tests_cant": "unbounded; carries a needs-plus-one flag across calls", "anchors": ["/repo/src/inclusive_map.rs: gaps (551-563), Gaps::next (835-877)", "/repo/fuzz/fuzz_targets/rangemap_inclusive_gaps.rs"]}
{"id": "C32", "title": "RangeInclusiveMap::overlapping yields exactly the overlapping entries in order", "statement": "overlapping(q) yields, in order, exactly the entries with r.end >= q.start and r.start <= q.end; for q.start<=q.end exactly those sharing a key with q; overlaps(q) iff there is one.", "quantifier": "every reachable map, every query", "why_tests_cant": "unbounded", "anchors": ["/repo/src/inclusive_map.rs: overlapping (567-585), Overlapping (889-892), overlaps (589-591)"]}
{"id": "C33", "title": "Integer StepLite implementations are lawful successors/predecessors", "statement": "For usize, u8..u128, i8..i128: whenever a larger value exists add_one returns the least larger value, whenever a smaller exists sub_one returns the greatest smaller one; at the extremes a debug build panics and a release build wraps.", "quantifier": "every value of every integer type", "why_tests_cant": "2^128 values", "anchors": ["/repo/src/std_ext.rs: impl_step_lite! (106-120)"]}
{"id": "C34", "title": "NotNan float StepLite implementations are lawful", "statement": "For f32 and f64: add_one/sub_one of a non-NaN float is never NaN (the expect never fires, no integer overflow); it is the next representable float up/down in NotNan's order (both zeroes stepping to the smallest subnormals); they are inverse to each other on finite values up to ==; they saturate at the infinities. So inclusive maps over NotNan keys have all the properties above.", "quantifier": "every non-NaN bit pattern of f32 and f64", "why_tests_cant": "2^64 bit patterns", "anchors": ["/repo/src/std_ext.rs: impl_step_lite_not_nan! (141-195)"]}
{"id": "C35", "title": "RangeSet is a set of keys", "statement": "contains(k) after insert(r)/remove(r) is contains(k) before, or k in r / and not k in r; get(k) returns the unique stored maximal range containing k; stored ranges are disjoint and never touch; two sets are == iff they contain the same keys.", "quantifier": "every history of insert/remove/clear/extend, every key", "why_tests_cant": "unbounded histories", "anchors": ["/repo/src/set.rs: RangeSet (30-32)"]}
{"id": "C36", "title": "RangeInclusiveSet is a set of keys", "statement": "On an inclusive set, contains(k) after insert(r)/remove(r) is contains(k) before, or k in r / and not k in r; get(k) returns the unique stored maximal range containing k; stored ranges are disjoint and never adjacent (none starts at the successor of the end of another); two sets are == iff they contain the same keys.", "quantifier": "every history, every key; no exhausted range inserted (for those see C41, C84)", "why_tests_cant": "unbounded histories", "anchors": ["/repo/src/inclusive_set.rs: RangeInclusiveSet (30-32)"]}
{"id": "C37", "title": "union yields exactly the union, ordered and disjoint", "statement": "union(a,b) yields ranges in increasing order, pairwise non-overlapping, covering exactly the keys in a or in b; it terminates and is fused.", "quantifier": "every pair of reachable sets (half-open and inclusive), every key; inclusive containers: no exhausted range inserted (for those see C41, C84)", "why_tests_cant": "pairs of unbounded states", "anchors": ["/repo/src/operations.rs: Union (108-116), RangeMerge", "/repo/src/set.rs: union (113-115)", "/repo/src/inclusive_set.rs: union (203-205)"]}
{"id": "C38", "title": "intersection yields exactly the intersection, ordered and disjoint", "statement": "intersection(a,b) yields non-empty ranges in increasing order, pairwise disjoint and non-touching, covering exactly the keys in both a and b; once exhausted it stays so.", "quantifier": "every pair of reachable sets (half-open and inclusive), every key; inclusive containers: no exhausted range inserted (for those see C41, C84)", "why_tests_cant": "pairs of unbounded states", "anchors": ["/repo/src/operations.rs: Intersection (191-199), RangeIntersect", "/repo/src/set.rs: intersection (108-110)", "/repo/src/inclusive_set.rs: intersection (208-210)"]}
{"id": "C39", "title": "| and & are set union and intersection, with the lattice laws", "statement": "k in (a|b) iff k in a or b; k in (a&b) iff k in a and b; results are canonical, so | and & are commutative, associative, idempotent, absorbing and distributive up to ==; neither ever panics.", "quantifier": "every pair/triple of reachable sets, every key; inclusive containers: no exhausted range inserted (for those see C41, C84)", "why_tests_cant": "triples of unbounded states", "anchors": ["/repo/src/set.rs: BitAnd (417-423), BitOr (425-431)", "/repo/src/inclusive_set.rs: BitAnd (476-482), BitOr (484-490)"]}
{"id": "C40", "title": "Works for any PartialEq values and any Ord keys", "statement": "The pointwise, disjointness and coalescing guarantees hold when value == is only symmetric and transitive (e.g. f64 values including NaN) and when Ord on keys identifies distinct keys (a total preorder, e.g. -0.0 and 0.0).", "quantifier": "every such key and value type", "why_tests_cant": "quantifies over types", "anchors": ["/repo/src/map.rs: impl bounds V: PartialEq + Clone, K: Ord + Clone", "/repo/CHANGELOG.md: v1.7.0"]}
{"id": "C41", "title": "An exhausted RangeInclusive argument breaks the inclusive map's lookup", "statement": "RangeInclusive carries a hidden exhausted flag; all guarantees about inclusive maps hold for histories that never pass an exhausted range; passing one (accepted by the start<=end assertion) can store a range whose end key is then not found by get although overlaps/gaps treat it as covered, and makes two maps compare != while cmp says Equal.", "quantifier": "every history with non-exhausted arguments; witness for the exhausted case", "why_tests_cant": "the flag is invisible in the API and absent from all tests", "anchors": ["/repo/src/inclusive_map.rs: insert (249-374), get_key_value (199-214), PartialEq (67-75), Ord (95-104)"]}
{"id": "C42", "title": "A panic in user code mid-operation leaves a well-formed map", "statement": "If a user supplied Clone/PartialEq/step function panics in the middle of insert or remove, the map left behind still has sorted, disjoint, non-empty ranges, and no key maps to a value it did not map to before the call or that is being inserted.", "quantifier": "every reachable map, every argument, every crash point within the call", "why_tests_cant": "every intermediate state of every call", "anchors": ["/repo/src/map.rs: insert (261-363), remove (375-437)", "/repo/src/inclusive_map.rs: insert (249-374), remove (386-460)"]}
{"id": "C43", "title": "The dense test oracle is equivalent to the range maps", "statement": "For u32 keys, the list of ranges produced by the crate's dense reference map after the same inserts equals iter() of RangeMap / RangeInclusiveMap.", "quantifier": "every sequence of inserts of u32 ranges; inclusive ranges not exhausted, and for the half-open map no range ending at the greatest key", "why_tests_cant": "the repo only tests permutations of a few fixed ranges", "anchors": ["/repo/src/dense.rs: DenseU32RangeMap, Iter"]}
{"id": "C44", "title": "Half-open and inclusive maps agree", "statement": "Performing the same history on a RangeMap with ranges a..b+1 and a RangeInclusiveMap with ranges a..=b gives corresponding entries.", "quantifier": "every history over a key type with successors; inclusive ranges not exhausted and not ending at the greatest key", "why_tests_cant": "unbounded histories", "anchors": ["/repo/src/map.rs", "/repo/src/inclusive_map.rs"]}
{"id": "C45", "title": "Inclusive gaps and clipped overlapping entries tile the queried range", "statement": "For a non-inverted outer range a..=b, the entries of overlapping(a..=b) clipped to a..=b together with gaps(a..=b), sorted by start, tile a..=b: the first piece starts at a, each next piece starts at the successor of the previous end, and the last ends at b (up to key equality).", "quantifier": "every reachable inclusive map, every non-inverted outer range, every lawful StepFns", "why_tests_cant": "relates two independently implemented iterators over all states, including at the ends of the key domain", "anchors": ["/repo/src/inclusive_map.rs: gaps (551-563), Gaps::next (835-877), overlapping (567-585)"]}
{"id": "C46", "title": "Inclusive iter/into_iter, len, is_empty, first/last agree", "statement": "For any interleaving of next/next_back, iter() and into_iter() of a RangeInclusiveMap yield the entries once each in order from either end with an exact size_hint; len() is their number; is_empty() iff len()==0; first_range_value/last_range_value are the entries with the least/greatest range.", "quantifier": "every reachable inclusive map, every call sequence; no exhausted range inserted (for those see C41, C84)", "why_tests_cant": "all interleavings and states", "anchors": ["/repo/src/inclusive_map.rs: Iter (618-620), IntoIter (658-660), len (227-229), is_empty (232-234), first_range_value (595-599), last_range_value (603-607)"]}
{"id": "C47", "title": "RangeInclusiveMap algebraic laws", "statement": "insert is idempotent; a later insert over the same or a larger range hides an earlier one; inserts/removes on disjoint ranges commute (results ==), even when they touch; remove after insert of a part of the range equals remove and vice versa; inserting a part of a stored entry again is a no-op; removing a range without mapped keys is a no-op.", "quantifier": "every reachable inclusive map, ranges, values, every lawful StepFns; no exhausted range inserted (for those see C41, C84)", "why_tests_cant": "unbounded", "anchors": ["/repo/src/inclusive_map.rs: insert (249-374), remove (386-460)"]}
{"id": "C48", "title": "Set iterators and accessors", "statement": "RangeSet/RangeInclusiveSet: iter and overlapping are double-ended queues of the stored (overlapping) ranges under any interleaving of next and next_back; gaps yields exactly the maximal uncovered parts of the outer range in order; overlaps, first, last, len, is_empty agree with the stored ranges.", "quantifier": "every reachable set, every query range, every interleaving; inclusive containers: no exhausted range inserted (for those see C41, C84)", "why_tests_cant": "unbounded states and interleavings", "anchors": ["/repo/src/set.rs: Iter (193-195), IntoIter (224-226), Gaps (362-364), Overlapping (387-389), first (176-178), last (182-184)", "/repo/src/inclusive_set.rs: Iter (219-221), IntoIter (250-252), Gaps (388-390), Overlapping (419-421), first (192-194), last (198-200)"]}
{"id": "C49", "title": "Set construction and serde", "statement": "Collecting/From array/extend give the set of all covered keys and panic iff a range is invalid; deserialising a serialised set gives back the same set; deserialising arbitrary data gives an error, a panic on an invalid range, or a well-formed set.", "quantifier": "every list of ranges, every reachable set, every serde input; inclusive containers: no exhausted range inserted (for those see C41, C84)", "why_tests_cant": "unbounded inputs", "anchors": ["/repo/src/set.rs: FromIterator (266-275), Extend (277-286), From (433-441), Serialize (289-304), Deserialize (307-317)", "/repo/src/inclusive_set.rs: FromIterator (292-301), Extend (303-312), From (449-459), Serialize (315-330), Deserialize (333-343)"]}
{"id": "C50", "title": "Set comparison traits are lawful", "statement": "On sets == is an equivalence, cmp a total order with cmp == Equal iff ==, partial_cmp is Some(cmp), and equal sets have equal hashes.", "quantifier": "all sets, every hasher consistent with the keys' ==; == against cmp for inclusive sets: no exhausted range stored (see C41)", "why_tests_cant": "unbounded states", "anchors": ["/repo/src/set.rs: derive(Clone, Hash, Eq, PartialEq, PartialOrd, Ord)", "/repo/src/inclusive_set.rs: derive"]}
{"id": "C51", "title": "Exact effect of insert and remove on the stored entries", "statement": "After insert(r, v) the map holds exactly: one entry n -> v, where n runs from the least start to the greatest end among r and the stored ranges with value == v that touch r; every entry with an equal value that does not touch r and every entry with another value that does not overlap r, unchanged; and the parts left and right of r of the overlapping entries with another value. After remove(r) it holds exactly the entries not overlapping r and the left/right remainders of the others. Hence entries that do not touch r are left alone, a value that is not equal to itself (NaN) is stored under exactly the given range, and (half-open) all range ends and values come from the map or the arguments.", "quantifier": "every reachable map (inclusive: also with exhausted ranges), every valid range, every value, every total preorder on keys and partial equivalence on values", "why_tests_cant": "unbounded states; lookups alone cannot tell which of several == values or keys is stored, or how touching NaN entries are split", "anchors": ["/repo/src/map.rs: insert (261-363), remove (375-437), adjust_touching_ranges_for_insert (439-488), adjust_overlapping_ranges_for_remove (490-514)", "/repo/src/inclusive_map.rs: insert (249-374), remove (386-460), adjust_touching_ranges_for_insert (462-514), adjust_overlapping_ranges_for_remove (516-544)"]}
{"id": "C52", "title": "The layout of the B-tree cannot be observed although it is searched in two orders", "statement": "The tree is laid out by range starts but overlapping/gaps search it by range ends through a Borrow implementation that breaks Borrow's contract. For every map obtainable through the API (also after panics of user code), every layout of its entries in a search tree and every way of rebalancing the tree at each change: get_key_value, overlapping and gaps search results and the outcome and final entries of insert and remove are the same, and are those of a search through all entries.", "quantifier": "every reachable map, every tree shape, every rebalancing strategy, every interruption by a panic, every argument, every total preorder on keys; inclusive maps also with exhausted ranges", "why_tests_cant": "tests see only the layouts std happens to produce for small maps; whether a search by the wrong order finds the right entries depends on node boundaries and on the whole stored state", "anchors": ["/repo/src/range_wrapper.rs: the Borrow implementations and the comment at the top", "/repo/src/map.rs: get_key_value (163-176), overlapping (203-218), gaps (192-199), insert (261-363), remove (375-437)", "/repo/src/inclusive_map.rs: get_key_value (199-214), overlapping (567-585), gaps (551-563), insert (249-374), remove (386-460)"]}
{"id": "C53", "title": "Comparison is lexicographic in (start, end, value)", "statement": "partial_cmp and cmp compare the entries yielded by iter() one after the other, by start, then by end, then by value; a map whose entries run out first is the lesser; values that cannot be compared make partial_cmp None exactly when all entries before them, and their ranges, are equal. Sets likewise, without values.", "quantifier": "any two maps or sets of any size, any PartialOrd resp. Ord values, every total preorder on keys", "why_tests_cant": "two maps of any size and all positions of the first difference", "anchors": ["/repo/src/map.rs: PartialOrd (64-73), Ord (75-84), expanded_iter (146-148)", "/repo/src/inclusive_map.rs: PartialOrd (84-93), Ord (95-104), expanded_iter (133-135)", "/repo/src/set.rs, /repo/src/inclusive_set.rs: derived PartialOrd, Ord"]}
{"id": "C54", "title": "quickcheck's arbitrary yields every well-formed container and never panics", "statement": "Whatever the generator produces, arbitrary() of the maps and sets does not panic, and returns a map (set) obtainable through the API whose contents are those of the generated ranges, later ones winning, empty and inverted ones (and exhausted inclusive ones) ignored; conversely every map (set) obtainable through the API is the result for some generated sequence.", "quantifier": "every generated sequence, every container obtainable through the API, every total preorder on keys", "why_tests_cant": "quickcheck itself samples; it cannot show that no generated input panics, nor that no reachable map is missed", "anchors": ["/repo/src/map.rs: impl quickcheck::Arbitrary (87-99)", "/repo/src/inclusive_map.rs: impl quickcheck::Arbitrary (107-119)", "/repo/src/set.rs, /repo/src/inclusive_set.rs: impl quickcheck::Arbitrary"]}
{"id": "C55", "title": "No description of the contents needs fewer ranges", "statement": "For every map obtainable through the API: any list of (range, value) pairs that describes the same contents, i.e. each of its ranges covers only keys whose value is == to its own, and every key with a value is covered, has at least len() elements (the pairs may be in any order, overlap, or touch). For sets: any list of ranges covering exactly the contained keys has at least len() elements.", "quantifier": "every reachable map or set, every list of ranges, every total preorder on keys, every symmetric transitive value ==; inclusive containers: no exhausted range inserted (for those see C41, C84)", "why_tests_cant": "ranges over all possible alternative descriptions of the contents", "anchors": ["/repo/src/lib.rs: 'Contiguous and overlapping ranges that map to the same value are coalesced into a single range'", "/repo/src/map.rs: insert (261-363), remove (375-437), len (134-136)", "/repo/src/inclusive_map.rs: insert (249-374), remove (386-460), len (227-229)", "/repo/src/set.rs, /repo/src/inclusive_set.rs"]}
{"id": "C56", "title": "Gaps are relative complements of sets", "statement": "Collecting s.gaps(outer) never panics and gives a set whose stored ranges are exactly the yielded ones and whose keys are those of outer not in s; it equals {outer} after removing every range of s; doing it twice gives s & {outer}, which is s itself when s lies within outer; and it satisfies De Morgan's laws: the complement of a|b is the intersection of the complements, that of a&b their union.", "quantifier": "all sets obtainable through the API and all outer ranges; every total preorder on keys; every lawful step functions; inclusive containers: no exhausted range inserted (for those see C41, C84)", "why_tests_cant": "ranges over pairs of arbitrary sets and outer ranges", "anchors": ["/repo/src/set.rs: gaps (152-156), from_iter (270-274), BitAnd (417-423), BitOr (425-431), remove (139-141)", "/repo/src/inclusive_set.rs: gaps (168-172), from_iter (296-300), BitAnd (476-482), BitOr (484-490), remove (159-161)"]}
{"id": "C57", "title": "The order of compatible insertions does not matter", "statement": "Extending a map by two sequences consisting of the same pairs, in any order and with any repetitions, gives == maps, provided pairs whose ranges overlap have == values; collecting the entries of a map in any order gives a map == to it. Sets: extending by sequences of the same ranges in any order and number gives == sets.", "quantifier": "all maps and sets obtainable through the API, all sequences; every total preorder on keys, every equivalence as value ==; inclusive containers: no exhausted range inserted (for those see C41, C84)", "why_tests_cant": "all permutations and repetitions of sequences of any length", "anchors": ["/repo/src/map.rs: Extend (622-632), FromIterator (610-620), insert (261-363)", "/repo/src/inclusive_map.rs: Extend (717-727), FromIterator (705-715), insert (249-374)", "/repo/src/set.rs, /repo/src/inclusive_set.rs: Extend, FromIterator"]}
{"id": "C58", "title": "Debug shows exactly the entries, in order, and nothing else", "statement": "The {:?} text of a map is {r1: v1, r2: v2, ...} with the entries of iter() in order, that of a set {r1, r2, ...}; so containers that are == have the same text provided == keys and == values have the same text, whatever histories produced them.", "quantifier": "all maps and sets, all texts of keys and values", "why_tests_cant": "maps of any size; independence from history", "anchors": ["/repo/src/map.rs: impl Debug (604-608)", "/repo/src/inclusive_map.rs: impl Debug (695-703)", "/repo/src/set.rs: impl Debug (257-264)", "/repo/src/inclusive_set.rs: impl Debug (283-290)"]}
{"id": "C59", "title": "insert and remove do work proportional to the ranges they touch", "statement": "insert(r, v) calls BTreeMap::range at most t+2 times, BTreeMap::remove at most t times and BTreeMap::insert at most 3 times, where t is the number of stored ranges that overlap r or are adjacent to it; remove(r) calls them at most o+2, o and 2 times, where o is the number of stored ranges overlapping r; the size of the map plays no part. Any history of calls makes at most 11 such calls for every range inserted or removed plus 2 for every range stored at its beginning.", "quantifier": "all maps obtainable through the API, all arguments, all histories; every total preorder on keys, every partial equivalence as value ==", "why_tests_cant": "a bound over all maps and histories; tests time a few", "anchors": ["/repo/src/map.rs: insert (261-363), adjust_touching_ranges_for_insert (439-488), remove (375-437), adjust_overlapping_ranges_for_remove (490-514)", "/repo/src/inclusive_map.rs: insert (249-374), adjust_touching_ranges_for_insert (462-514), remove (386-460), adjust_overlapping_ranges_for_remove (516-544)"]}
{"id": "C60", "title": "The crate's randomised tests and fuzz targets cannot fail", "statement": "On every input the bodies of the four fuzz targets run to completion without a panic: after any sequence of inserts and removes no two neighbouring entries touch with == values, and the overlapping entries truncated to the outer range together with the gaps, sorted by start, begin at its start, end at its end and follow each other without holes (none at all when the outer range is empty); the targets' own +1/-1 on u8 keys do not overflow. first_range_value/last_range_value equal iter().min_by_key(start)/max_by_key(end), and inserting the ranges yielded by union or intersection one by one into a new set never meets an overlap.", "quantifier": "all operation sequences, outer ranges and obtainable maps and sets; every key type, not only u8, and every value type; for the inclusive targets ranges with start <= end, as their generator yields", "why_tests_cant": "a fuzzer or property test runs the same bodies on finitely many inputs over u8", "anchors": ["/repo/fuzz/fuzz_targets/rangemap_coalesce.rs", "/repo/fuzz/fuzz_targets/rangemap_gaps.rs", "/repo/fuzz/fuzz_targets/rangemap_inclusive_coalesce.rs", "/repo/fuzz/fuzz_targets/rangemap_inclusive_gaps.rs", "/repo/src/map.rs: test_first (877-882), test_last (896-901)", "/repo/src/set.rs: test_union_overlaps_u8, test_intersection_overlaps_u8"]}
{"id": "C61", "title": "Only the order of the keys and the equality of the values matter", "statement": "Renaming all keys by an order embedding f and all values by a function g that respects and reflects == before any history of calls gives exactly the renamed entries, the same outcome (success or the same panic) for every further call, and renamed results of get, get_key_value, overlapping (any interleaving of next and next_back), gaps, union, intersection, | and &; ==, cmp of two maps are unchanged. For the inclusive containers the step functions of the two key types need to correspond only at keys that are not the greatest resp. least; in particular a RangeInclusiveMap over a narrow unsigned integer type behaves as one over any wider unsigned type, in debug and release builds, although add_one differs at the narrow type's MAX.", "quantifier": "all key types (the second key type may have further keys ordered without any law), order embeddings, value renamings, histories, further calls, query arguments and call sequences; all four containers; all pairs of unsigned widths and build modes", "why_tests_cant": "relates two runs over different key types for every embedding; a test instantiates a handful of types", "anchors": ["/repo/src/map.rs: insert (261-363), remove (375-437), get_key_value (163-176), overlapping (203-218), gaps (192-199)", "/repo/src/inclusive_map.rs: insert (249-374), remove (386-460), touches, gaps (551-563)", "/repo/src/operations.rs", "/repo/src/std_ext.rs: impl_step_lite"]}
{"id": "C62", "title": "What is hashed determines the contents", "statement": "If the data that keys and values write to a Hasher are prefix-free (they determine the key or value up to == and where it ends), then so are the data that a RangeMap, RangeInclusiveMap, RangeSet or RangeInclusiveSet writes: two of them that write the same data, even with arbitrary further data following, are ==. Together with C17: two maps write the same data exactly when they are ==.", "quantifier": "all maps and sets, all key and value hash functions with the stated property, all data following", "why_tests_cant": "injectivity up to == over all pairs of maps and all continuations; a hash that ignores ends or the length passes every equal-implies-equal-hash test", "anchors": ["/repo/src/map.rs: impl Hash for RangeMap (41-52)", "/repo/src/inclusive_map.rs: impl Hash for RangeInclusiveMap (54-65)", "/repo/src/set.rs: derive(Hash)", "/repo/src/inclusive_set.rs: derive(Hash)"]}
{"id": "C63", "title": "Union and intersection of partly consumed iterators; their unwraps cannot fail", "statement": "set::Union::new(i, j) and set::Intersection::new(i, j) (and those of inclusive_set), for iterators i and j over two obtainable sets from which any number of ranges has been taken with next and next_back, yield non-empty ranges in increasing order covering exactly the keys that are in a range left in i or (and) in a range left in j, without overlaps (intersection: without even touching), and then None forever; next never panics and its loops end after at most as many rounds as ranges are left. The unwraps in Union::next cannot fail for any pair of iterators whatsoever, including infinite and non-fused ones.", "quantifier": "all obtainable sets, all sequences of next/next_back calls made on the two iterators before, all sequences of next calls after; for the unwraps: every iterator", "why_tests_cant": "the tests only use fresh iterators of small sets; all states of both iterators and all call sequences", "anchors": ["/repo/src/operations.rs: Union::new (127-132), Union::next (142-180), Intersection::new (210-215), Intersection::next (225-245)", "/repo/src/set.rs: type Union, type Intersection, Iter (193-195)", "/repo/src/inclusive_set.rs: type Union, type Intersection, Iter (219-221)"]}
{"id": "C64", "title": "Values whose == obeys no laws", "statement": "With values whose == is an arbitrary deterministic relation (not reflexive, symmetric or transitive, with != its negation), insert and remove still panic exactly on empty or inverted ranges (leaving the map alone), insert's loop still ends after at most len + 1 rounds, entries stay sorted, disjoint and non-empty, contains_key is decided by the last operation touching the key, get yields the last written value or one reached from it by a chain of ==, a single insert changes a value outside its range only from w to v with w == v, and all queries (overlapping, gaps, tiling) behave as proved for lawful values, since every such map could also have been obtained with an == that is never true.", "quantifier": "all value types with any == whatsoever, all key types, all histories, all arguments; both maps", "why_tests_cant": "quantifies over every relation == on the values; a broken == cannot be enumerated", "anchors": ["/repo/src/map.rs: insert (340), adjust_touching_ranges_for_insert (448)", "/repo/src/inclusive_map.rs: insert (351), adjust_touching_ranges_for_insert (471)"]}
{"id": "C65", "title": "Clones need only compare equal to the original", "statement": "The crate clones keys and values in many places. Whatever these calls return, possibly something else every time, as long as a clone compares equal to what was cloned (keys by Ord, values indistinguishable by ==): insert, remove and extend panic in the same cases, every history of calls ends with the same entries as with exact clones (bounds equal, values indistinguishable, entry by entry), and get_key_value, overlapping (from both ends), gaps, union and intersection return the same up to such equality. A cloned map has the same entries and is == to the original. With keys and values where equal means identical, the maps are identical.", "quantifier": "all key types with a total preorder, all values with any ==, all behaviours of Clone that respect equality (different at every call), all histories, arguments and numbers of iterator calls; both maps, both kinds of range; step functions that treat equal keys alike", "why_tests_cant": "tests use integers, whose clones are identical; the behaviours of Clone cannot be enumerated", "anchors": ["/repo/src/map.rs: derive Clone (26), clone calls in get_key_value (166), overlapping (207), insert (301, 323-324, 350-351), remove (401, 419, 428), adjust_touching_ranges_for_insert (455-478), adjust_overlapping_ranges_for_remove (503-510), Gaps::next (743, 755)", "/repo/src/inclusive_map.rs: derive Clone (37), get_key_value (204), insert (297, 317-319, 361-362), remove (420, 439, 451), adjust_touching_ranges_for_insert (478-504), adjust_overlapping_ranges_for_remove (530-539), overlapping (574), Gaps::next (853, 869, 873)", "/repo/src/operations.rs: merge (47, 61), intersect (83, 96), Union::next (159)", "/repo/src/std_ext.rs: touches (64)"]}
{"id": "C66", "title": "The laws asked of StepFns are necessary as well as sufficient", "statement": "RangeInclusiveMap and RangeInclusiveSet accept any StepFns. They have the right contents after every history of calls (get resp. contains decided by the last operation covering the key) if and only if add_one returns the next key for every key that has a greater one and sub_one the previous key for every key that has a smaller one. Two calls are enough to tell: storing a..=b and removing a (resp. b) is right for all keys only if add_one(a) (resp. sub_one(b)) is right. With step functions that skip a key, or that do not move, insert can run forever: if add_one(a) > x > a, then inserting a after x with another value never returns; if add_one(a) == a < b, then inserting a after a..=b with another value never returns.", "quantifier": "all key types with a total preorder, all deterministic step functions (including ones that panic), all value types, all histories; hanging: any number of loop iterations", "why_tests_cant": "quantifies over all step functions, and says that a call never returns", "anchors": ["/repo/src/std_ext.rs: StepLite (87-103), StepFns (223-239)", "/repo/src/inclusive_map.rs: insert (321-370), adjust_touching_ranges_for_insert (489-508), adjust_overlapping_ranges_for_remove (526-543)", "/repo/src/inclusive_set.rs: insert (146-148), remove (159-161)"]}
{"id": "C67", "title": "insert with a != that is not the negation of ==", "statement": "PartialEq lets a type define != on its own; the crate asks != in the loop of insert and == everywhere else. If any two values are == or != (possibly both), insert panics exactly on empty or inverted ranges, its loop runs at most len + 1 times, entries stay sorted and disjoint, and after any history get yields a value exactly if the last operation touching the key wrote one, connected to it by a chain of ==. If two values are neither == nor !=, then insert of one directly before the other never returns; so insert returns after every history if and only if any two values are == or !=. Values that are both == and != are not coalesced when the stored one follows the new one. If != is the negation of ==, everything is as in the other properties.", "quantifier": "all key types with a total preorder, all deterministic == and != on the values, all histories; hanging: any number of loop iterations; RangeMap and RangeInclusiveMap", "why_tests_cant": "quantifies over all implementations of PartialEq, and says that a call never returns", "anchors": ["/repo/src/map.rs: insert (323-358, != at 340), adjust_touching_ranges_for_insert (448)", "/repo/src/inclusive_map.rs: insert (321-370, != at 351), adjust_touching_ranges_for_insert (462-514)"]}
{"id": "C68", "title": "How many clones are made", "statement": "insert clones at most t + 1 values and 4t + 4 keys (inclusive maps: 4t + 6), where t is the number of stored ranges touching the given one, however large the map is; remove at most o + 1 values and 3o + 3 keys, where o is the number of stored ranges overlapping the given one. A history of calls makes at most 16 (inclusive: 18) clones of keys and 4 of values per range inserted or removed, plus 4 resp. 1 per range stored at the beginning. Calls that panic because of an empty or inverted range have cloned nothing. get, get_key_value, contains_key, overlapping and gaps clone exactly two keys and no value; Gaps::next clones the two ends of the gap it returns (inclusive: at most two keys) and nothing else; clone clones every stored key and value exactly once; Union::next makes at most one key clone more than it takes ranges (inclusive: two per range taken); Intersection::next clones exactly the two ends of the range it returns.", "quantifier": "all maps reachable by any history, all ranges and values, all key types with a total preorder (and lawful step functions), all histories", "why_tests_cant": "bounds on every map and history; the worst case is not known to a test", "anchors": ["/repo/src/map.rs: insert (261-363), remove (375-437), adjust_* (439-514), get_key_value (161-176), overlapping, gaps, Gaps::next (728-761)", "/repo/src/inclusive_map.rs: insert (249-374), remove (386-460), adjust_* (462-544), get_key_value, overlapping, gaps, Gaps::next (835-877)", "/repo/src/operations.rs: Union::next (142-180), Intersection::next (225-245), merge, intersect", "/repo/src/std_ext.rs: touches (44-67)"]}
{"id": "C69", "title": "Inclusive maps have no preferred direction", "statement": "Turn the key order of a RangeInclusiveMap around (as with std::cmp::Reverse), exchange add_one and sub_one, and reflect every range passed to insert, remove and extend: every call has the same outcome (normal or panic) and the map holds exactly the reflected entries, in the opposite order. Look-ups find the reflected entry, first and last entry are exchanged, overlapping and gaps yield the reflected items in the opposite order. In particular gaps yields exactly the largest ranges within the outer range that share no key with an entry.", "quantifier": "all histories that insert no exhausted range, all totally ordered key types with lawful step functions, all value types whose == is a partial equivalence, all keys, queries and outer ranges", "why_tests_cant": "a relation between two runs of the program over all histories and two orders of any key type", "anchors": ["/repo/src/inclusive_map.rs: insert (249-374), remove (386-460), adjust_touching_ranges_for_insert, adjust_overlapping_ranges_for_remove (462-544)", "/repo/src/inclusive_map.rs: get_key_value (197-214), overlapping (565-585), gaps, Gaps::next (835-877), first_range_value, last_range_value"]}
{"id": "C70", "title": "Queries do work proportional to what they return", "statement": "Overlapping::next and overlaps take at most one entry from the tree and make at most one comparison. Consuming overlapping(q) from the front until it returns None takes at most one entry more than are yielded. Consuming gaps(outer) until it returns None takes at most two entries more than overlap outer, makes at most two comparisons for each entry taken, and (inclusive maps) calls add_one and sub_one at most twice per overlapping entry and once more. From the back it is different: the first call of Overlapping::next_back takes every entry that lies after the query up to the end of the map and the one it yields, exactly; all further calls together take exactly one entry per entry yielded.", "quantifier": "all maps reachable by any history, all queries (empty and inverted ones too), all key types with a total preorder, lawful step functions", "why_tests_cant": "bounds on every map; the entries looked at are not visible in the results", "anchors": ["/repo/src/map.rs: Overlapping::next (789-803), next_back (810-818), Gaps::next (728-761), overlaps (220-224)", "/repo/src/inclusive_map.rs: Overlapping::next (906-921), next_back (927-936), Gaps::next (835-877), overlaps (587-591)"]}
{"id": "C71", "title": "overlapping with any implementation of Borrow", "statement": "overlapping takes any R: Borrow<Range<K>> and calls borrow() anew whenever it needs an end of the query. However borrow() behaves - it may return another range each time - overlapping does not panic; whatever sequence of next and next_back calls is made, the entries returned at the front followed by those returned at the back in the opposite order are distinct entries of the map in ascending order; after as many calls as the map has entries the iterator returns None forever; every entry returned ends after the start that borrow() gave at the beginning and begins before an end that borrow() gave during the call. If the ranges borrow() returns always have equal ends, the iterator is the ordinary one. borrow() is called once for each stored entry looked at.", "quantifier": "all maps, all sequences of ranges returned by borrow(), all sequences of calls at either end, all key types with a total preorder", "why_tests_cant": "all behaviours of the caller's code, over all sequences of calls", "anchors": ["/repo/src/map.rs: overlapping (201-218), Overlapping::next (789-803), next_back (810-818)", "/repo/src/inclusive_map.rs: overlapping (565-585), Overlapping::next (906-921), next_back (927-936)", "/repo/src/range_wrapper.rs: Ord for RangeEndWrapper (119-126), RangeInclusiveEndWrapper (231-238)"]}
{"id": "C72", "title": "Query iterators interrupted by a panic of user code", "statement": "Suppose Ord::cmp, Clone::clone, add_one or sub_one panics during a call of next or next_back of an Overlapping or Gaps iterator, the caller catches the panic and goes on with the iterator. Overlapping: what it still returns, from both ends, is a subsequence of what the uninterrupted iterator returns (nothing twice, nothing new, same order), and each interrupted call loses at most one item. Gaps: the ranges returned are never empty, lie within the outer range and are ascending and disjoint, and the iterator never panics of its own accord; if comparisons do not panic (only clone, add_one, sub_one do), they are a subsequence of the true gaps. This last is not so when a comparison panics: the entry being compared is skipped, and the next range returned as a gap can contain mapped keys (a concrete case is proved). A call during which nothing panics returns, and leaves behind, exactly what the ordinary call does.", "quantifier": "all reachable maps, outer or query ranges, sequences of calls, and all sets of points at which user code panics", "why_tests_cant": "no test makes user code panic; the points of interruption and later calls are unbounded in number", "anchors": ["/repo/src/map.rs:728-761", "/repo/src/map.rs:789-818", "/repo/src/inclusive_map.rs:835-877", "/repo/src/inclusive_map.rs:906-936"]}
{"id": "C73", "title": "Union and intersection interrupted by a panic of user code", "statement": "Suppose a comparison or clone of keys panics during a call of next of a Union or Intersection iterator, the caller catches the panic and goes on with the iterator. Intersection loses nothing: the items returned are the beginning of what the uninterrupted iterator yields, and all of it once a call has returned None. Union may lose keys, but the ranges it still returns are not empty, ascending, without overlaps, and contain only keys of the two sets. A call is interrupted exactly by the first of the calls of user code it makes that panics, and if none does it does what it would do otherwise.", "quantifier": "all pairs of reachable sets of either kind, numbers of calls, and all sets of points at which user code panics", "why_tests_cant": "no test makes user code panic; the points of interruption and later calls are unbounded in number", "anchors": ["/repo/src/operations.rs:142-180", "/repo/src/operations.rs:225-245", "/repo/src/set.rs:107-115", "/repo/src/inclusive_set.rs:202-210"]}
{"id": "C74", "title": "Union and intersection do work proportional to the number of ranges", "statement": "However often next is called on a.union(&b), the iterator takes each range of the two sets at most once and makes at most seven comparisons of keys for each (four for a.intersection(&b)); a.union and a.intersection together with all calls are therefore linear in a.len() + b.len(). Once next has returned None, further calls take nothing and compare nothing. RangeSet and RangeInclusiveSet.", "quantifier": "All key types with a total preorder, all sets (any state of the iterators), any number of calls.", "why_tests_cant": "A bound on the work for all pairs of sets and all numbers of calls; the merging loop of Union can run many times within one call, so the bound is amortized over the calls and cannot be read off from any sample.", "anchors": ["/repo/src/operations.rs:40-66", "/repo/src/operations.rs:74-98", "/repo/src/operations.rs:142-180", "/repo/src/operations.rs:225-245"]}
{"id": "C75", "title": "Going on after a panic of user code: extend, sets, repeated calls, histories", "statement": "If user code (the source iterator of extend, or Clone/PartialEq/Ord/Drop/step functions) panics during extend and the panic is caught, a prefix of the items has been inserted completely and at most one further insertion is interrupted, with the effects described by C42; the container left behind is one that uninterrupted calls can produce. RangeSet and RangeInclusiveSet behave alike. Repeating an interrupted insert or remove gives every key of the range its due value; any other key has the value it had before the first attempt, or none, and its old value if its entry did not touch the range. After any number of calls some of which are interrupted, a value found under a key was inserted by a call whose range contains the key and every later call whose range contains the key was interrupted.", "quantifier": "All key and value types with lawful Ord/PartialEq (exact equality of values for the last two claims), all reachable containers, all sequences of items and calls, all sets of points at which user code panics.", "why_tests_cant": "There is a possible panic at every call of user code in every call of a history; no test suite enumerates them, and the crate's tests contain none.", "anchors": ["/repo/src/map.rs:622-633", "/repo/src/map.rs:261-437", "/repo/src/inclusive_map.rs:717-727", "/repo/src/set.rs:117-141", "/repo/src/set.rs:277-286", "/repo/src/inclusive_set.rs:137-161", "/repo/src/inclusive_set.rs:303-312"]}
{"id": "C76", "title": "serde with serialisers and deserialisers that may fail", "statement": "Serialising any of the four containers with any serialiser makes, in this order, one serialize_seq call announcing exactly the number of stored ranges, one serialize_element call per stored range, ascending, and one end call; it stops at the first call that returns an error and returns that error, and otherwise returns the result of end. Deserialising with any SeqAccess inserts the delivered elements in order until next_element returns Ok(None) (the map so far is returned), or an error (returned as it is), or an element with an empty or inverted range (panic), and does not call next_element again after that. Round trip: through any format that can read back what it has written when told the right length, a container that was written without an error is read back identically.", "quantifier": "all reachable maps and sets, all serialisers and deserialisers (state machines that may fail at any call), all element types", "why_tests_cant": "the tests use one format, serde_json, that never fails; formats that depend on the announced length and errors at any point are not exercised", "anchors": ["/repo/src/map.rs:634-702", "/repo/src/inclusive_map.rs:729-797", "/repo/src/set.rs:288-353", "/repo/src/inclusive_set.rs:314-379"]}
{"id": "C77", "title": "Queries of parts of a range", "statement": "For a range inner inside a range outer: overlapping(inner) yields exactly those entries of overlapping(outer) that overlap inner, and gaps(inner) yields exactly the non-empty parts inside inner of what gaps(outer) yields. For a <= b <= c: overlapping(a..c) is overlapping(a..b) followed by overlapping(b..c), an entry lying across b being yielded once; gaps(a..c) is gaps(a..b) followed by gaps(b..c), the two parts of a gap that lies across b being one gap. The same for RangeInclusiveMap with a..=b and b'..=c, b' the key next after b.", "quantifier": "All reachable maps, all ranges with inner inside outer, all a, b, c (and b'). Gaps of the inclusive map, and the split of gaps, for key types where only equal keys compare as equal; the rest for all lawful Ord.", "why_tests_cant": "Relates the results of three queries at every point where a range may be cut.", "anchors": ["/repo/src/map.rs:192-225", "/repo/src/map.rs:713-765", "/repo/src/inclusive_map.rs:551-592", "/repo/src/inclusive_map.rs:808-890"]}
{"id": "C78", "title": "Programs made of queries and updates", "statement": "Four programs users write with the API do what they are meant to, and never panic. Inserting v over every range that gaps(outer) yields leaves mapped keys as they were, maps the rest of outer to v, changes nothing else, and afterwards gaps(outer) yields nothing. Doing so for each pair (r, v) of a list puts the list under the map: a key the map had keeps its value, another key gets the value of the first pair that covers it. Inserting, for each entry that overlapping(q) yields, its part inside q with f(value) applies f to the values in q and changes nothing else. Removing each range that overlapping(q) yields leaves exactly the entries that do not overlap q, unchanged.", "quantifier": "All reachable RangeMaps and RangeInclusiveMaps (inclusive: no exhausted ranges inserted, lawful step functions), all ranges (for the third program non-empty ones), values, lists of pairs and functions f; values up to ==.", "why_tests_cant": "Composes queries with updates made from their results, for every map; the tests look at single calls on a few maps.", "anchors": ["/repo/src/map.rs:192-225", "/repo/src/map.rs:261-437", "/repo/src/map.rs:622-633", "/repo/src/inclusive_map.rs:551-592", "/repo/src/inclusive_map.rs:249-440", "/repo/src/inclusive_map.rs:717-727"]}
{"id": "C79", "title": "The crate's property tests pass on every input", "statement": "The bodies of the remaining #[proptest] functions run without a failed assertion for every map or set that can be built with the API and every query range: test_len, test_iter_reversible, test_into_iter_reversible and test_overlapping_reversible (for maps exactly when the values compared are == to themselves), test_first and test_last of sets, test_arbitrary_map_u8 and test_arbitrary_set_u8 on all lists of ranges with ordered bounds, test_hash for any hasher and any key and value types whose Hash agrees with ==, test_ord for value types whose Ord agrees with ==, test_union_contains_u8, test_intersection_contains_u8, and steps_are_reversible and steps_move_in_the_right_direction for every finite float of any format. The strategies that generate the random maps and sets make only containers the API can build; those of RangeSet, RangeInclusiveMap and RangeInclusiveSet never panic, and that of RangeMap panics exactly when a pair of equal bounds is drawn. Every container the API can build comes from some draw, so nothing is left out by the generators, and test_hash and test_ord pass on two given containers only if the laws they are named after hold for them.", "quantifier": "all maps and sets obtainable by the API, all key and value types (not only u8, u64 and String), all query ranges, lists of ranges and lists of keys, all hashers, all float formats, both build modes; inclusive ranges not exhausted", "why_tests_cant": "these are the tests: a run tries 256 random inputs of each, over u8 and u64, and a draw of two equal u64 bounds, which makes the RangeMap strategy itself panic, practically never happens", "anchors": ["/repo/src/map.rs:861-991", "/repo/src/set.rs:466-646", "/repo/src/inclusive_map.rs:977-1110", "/repo/src/inclusive_map.rs:1978-2077", "/repo/src/inclusive_set.rs:500-677", "/repo/src/inclusive_set.rs:853-902", "/repo/src/std_ext.rs:340-353"]}
{"id": "C80", "title": "Nothing is made up: every stored value and range end comes from the calls", "statement": "After any history of calls (including calls that panicked and were caught), every value stored in a map is literally one of the values passed to a carried-out insertion since the last clear. Every stored start is literally the start of a range inserted with an equal value, or the end (for inclusive containers: add_one of the end) of a range that was removed or inserted with an unequal value; every stored end is literally the end of a range inserted with an equal value, or the start (inclusive: sub_one of the start) of a range that was removed or inserted with an unequal value. In sets only removals cut. The ends of the ranges yielded by union and intersection and stored by | and & are literally ends of ranges stored in the operands, and the ends of gaps are ends of the outer range or (inclusive: the neighbours of) ends of stored ranges. Refused calls, calls before the last clear and items of an extend after the first invalid one leave no trace.", "quantifier": "all histories of calls, all key types with a total preorder (equal keys need not be identical), all value types whose == is symmetric and transitive, all lawful step functions, all pairs of sets, all outer ranges, any number of calls of next", "why_tests_cant": "It relates every stored key of every reachable container to the whole history; with keys that compare equal without being identical a test can only probe particular coincidences.", "anchors": ["/repo/src/map.rs:261-363", "/repo/src/map.rs:375-515", "/repo/src/map.rs:728-761", "/repo/src/inclusive_map.rs:249-374", "/repo/src/inclusive_map.rs:386-544", "/repo/src/inclusive_map.rs:835-877", "/repo/src/operations.rs:40-98", "/repo/src/operations.rs:142-180", "/repo/src/operations.rs:225-245"]}
{"id": "C81", "title": "Exactly which ranges union and intersection yield", "statement": "union(a,b) yields the finest division of the keys of a and b into ranges that cuts none of the ranges stored in a and b: every stored range lies within one yielded range, and at every place where a yielded range could be cut in two some stored range is in the way. So ranges that share a key are joined and ranges that merely touch (inclusive: are adjacent) are not. There is exactly one such division, up to keys that compare equal. intersection(a,b) yields exactly the non-empty intersections of a range stored in a with a range stored in b, in order and never touching; where two ends compare equal it takes the start from b and the end from a.", "quantifier": "every pair of reachable sets (half-open; inclusive with lawful step functions and no exhausted ranges inserted), every total preorder on the keys", "why_tests_cant": "The tests compare the keys covered (contains), which cannot tell a joined pair of touching ranges from an unjoined one, or a few fixed lists.", "anchors": ["/repo/src/operations.rs:34-66", "/repo/src/operations.rs:68-98", "/repo/src/operations.rs:135-188", "/repo/src/operations.rs:218-246"]}
{"id": "C82", "title": "One map laid over another, copies of a part, and undo", "statement": "a.extend(b) (the entries of the map b inserted into the map a) never panics, and maps a key to b's value if b has one, else to a's. Up to == it is associative; the empty map is neutral on both sides (exactly); a, then b, then a is b, then a; maps without a common key commute. The entries overlapping(q) yields, each cut to q, inserted into another map n put there the part of the map inside q and change nothing else. Such a copy taken beforehand undoes an update: after insert(q, v), remove(q) and inserting the copy gives a map == to the one before; after remove(q), inserting the copy does. The same for RangeInclusiveMap.", "quantifier": "all maps a, b, c, m, n reachable through the API, all non-empty ranges q, all values v, all keys; key type any total preorder (inclusive: with lawful step functions, ranges not exhausted); values with a symmetric transitive == for the contents, an equivalence for the laws up to ==", "why_tests_cant": "The laws relate several whole maps, each with any number of entries; tests check chosen updates on chosen maps, never that a copy of any part restores any map after any update.", "anchors": ["/repo/src/map.rs:203-215", "/repo/src/map.rs:261-351", "/repo/src/map.rs:375-412", "/repo/src/map.rs:622-633", "/repo/src/inclusive_map.rs:249-372", "/repo/src/inclusive_map.rs:386-427", "/repo/src/inclusive_map.rs:567-580", "/repo/src/inclusive_map.rs:717-729"]}
{"id": "C83", "title": "Set programs: difference, symmetric difference, subset, common keys, filling", "statement": "Programs users write for what RangeSet has no method for never panic and do what they are meant to. Removing every range of b from a gives the keys in a and not in b. a|b with every range of a&b removed has the keys in exactly one of the two, and is == to the two differences joined by |. b.iter().all(|r| a.gaps(r).next().is_none()) says whether b is a subset of a; that is the case exactly when a|b == a and exactly when a&b == b, and both ways exactly when a == b. b.iter().any(|r| a.overlaps(r)), a.intersection(b).next().is_some() and !(a&b).is_empty() all say whether there is a common key. Extending s by what s.gaps(outer) yields adds exactly the keys of outer, and leaves no gap in outer. The same for RangeInclusiveSet.", "quantifier": "all sets a, b, s reachable through the API, all ranges outer (also empty and inverted ones), all keys; key type any total preorder (inclusive: with lawful step functions, no exhausted ranges inserted)", "why_tests_cant": "Equivalences between whole programs on two arbitrary sets of any size; a test can only compare them on chosen or sampled sets of small integers.", "anchors": ["/repo/src/set.rs:107-115", "/repo/src/set.rs:130-141", "/repo/src/set.rs:143-172", "/repo/src/set.rs:417-431", "/repo/src/inclusive_set.rs:159-189", "/repo/src/inclusive_set.rs:203-210", "/repo/src/inclusive_set.rs:476-490"]}
{"id": "C84", "title": "The hidden exhausted flag of a RangeInclusive changes lookups only", "statement": "std marks a RangeInclusive that has been iterated to its end with a hidden flag, and insert, remove and extend accept such ranges. Clear the flags of all ranges in a history of calls on a RangeInclusiveMap or RangeInclusiveSet: the same calls panic in the same way, and the same starts, ends and values are stored in the same order. So overlapping (from both ends), overlaps, gaps, len, is_empty, first_range_value, last_range_value, cmp, partial_cmp and serialize answer as if no flag had been there, whether or not the query itself is flagged. A stored flag always belongs to a range stored just as it was inserted. get_key_value finds the entry that the history without flags finds, except that it finds nothing when that entry is flagged and the key is not below its end. intersection yields the very same ranges and & the very same set; union may yield overlapping ranges, but they cover exactly the keys of both sets, and | builds the set of the unflagged operands, apart from flags.", "quantifier": "all totally preordered key types, all histories with any flags on any ranges, all queries, all call sequences on the iterators; for the structural part any step functions (also ones that panic or are not lawful) and any PartialEq on values; lawful step functions for lookup and |", "why_tests_cant": "An exhausted range equal to one written in the source cannot be told apart by printing its ends, so random tests never generate the flag; that no code path except contains looks at it is a statement about all histories and all queries.", "anchors": ["/repo/src/inclusive_map.rs:249-374", "/repo/src/inclusive_map.rs:386-460", "/repo/src/inclusive_map.rs:197-214", "/repo/src/inclusive_map.rs:546-591", "/repo/src/std_ext.rs:38-66", "/repo/src/operations.rs:54-66", "/repo/src/operations.rs:87-98", "/repo/src/inclusive_set.rs:476-490"]}
{"id": "C85", "title": "Comparisons of values that change their answer", "statement": "PartialEq of the values may be any code, for example one that reads a clock: every single == or != asked by the crate may be answered in any way, also differently for the same two values. Whatever the answers, insert on a RangeMap or RangeInclusiveMap panics exactly on an empty or inverted range, with the assertion and without changing the map; otherwise it returns or runs on. After any history of calls that came to an end, the entries are non-empty, increasing and disjoint, contains_key answers exactly which keys the history wrote last (so the set of keys does not depend on the answers), and get yields a value that is linked to the one last written by pairs that were answered == at some time; the map could also have been built with values that are never ==. If from some comparison on a != b and the a == b asked next are not both denied, insert always comes to an end, after at most len + 3 iterations and one more for each comparison before that. If they are both denied again and again it never returns. If the answers do not change this is the insert of C67.", "quantifier": "all totally preordered key types, all functions giving the answer of each comparison by its number, all histories with other comparisons in between, all keys, lawful step functions, and for lookups in inclusive maps ranges that are not exhausted", "why_tests_cant": "Test values compare consistently; the adversary is an infinite sequence of answers, and both freedom from corruption and termination are statements about all of them.", "anchors": ["/repo/src/map.rs:261-363", "/repo/src/map.rs:439-488", "/repo/src/inclusive_map.rs:249-374", "/repo/src/inclusive_map.rs:462-514", "/repo/src/map.rs:621-632"]}
{"id": "C86", "title": "Key types whose == does not agree with their order", "statement": "When it changes a map the crate asks `==` of two keys in one place only, the loop of `insert`. Take `==` on keys to be any function instead of equality in the order. RangeMap: if, of any two keys a ≤ b, a == b exactly when b ≤ a too, `insert` behaves as in the other properties on every map; if two keys that are equal in the order are not ==, some two-call program hangs; if a key is == to a greater one, some two-call program leaves two overlapping ranges and an old value where the new one was inserted. Hence on a key type in which every key has a smaller and a greater one, with two values that are not ==, the condition is necessary and sufficient. RangeInclusiveMap: it is enough, and necessary, that every key is == to what add_one makes of the key before it; otherwise `insert` can hang. A `==` that holds of too many keys does no harm there.", "quantifier": "all functions E : K → K → Bool in the place of ==, all total preorders of keys, all maps, ranges, values and numbers of loop iterations; for inclusive maps all lawful step functions", "why_tests_cant": "A test uses one key type, normally an integer; floats wrapped with total_cmp but f64's ==, or keys with a payload, are exactly the types users write by hand. Which deviations are harmless, which corrupt and which hang is a statement about all functions ==.", "anchors": ["/repo/src/map.rs:326-359", "/repo/src/inclusive_map.rs:321-370"]}
{"id": "C87", "title": "Comparisons inside the B-tree grow with the logarithm of the number of ranges", "statement": "std keeps a BTreeMap as a B-tree with 5 to 11 keys in each node (1 to 11 in the root) and searches a node key by key. Whenever the entries of a map are laid out in any such tree, and the tree is kept one by any way of rebalancing: in a map of fewer than 2·6^h − 1 ranges, get/get_key_value/contains_key compare keys at most 11·h + 2 times, and calling overlapping or gaps at most 11·h times, with the results of the other properties; insert and remove compare keys inside the B-tree at most (22·h+2)·(t+2) + 11·h·(t+3) times, t being the number of stored ranges that touch (remove: overlap) the given one; a history of n inserted or removed ranges makes at most (22·h+2)·(11·n + 2·len) such comparisons however many stored ranges the single calls touch, so n calls on an empty map make O(n log n). Such layouts exist for every list of entries. Both map kinds.", "quantifier": "all total preorders of keys, all maps reachable through the API, all B-tree layouts of their entries, all ways of rebalancing that keep a B-tree, all keys, ranges, histories and h", "why_tests_cant": "A benchmark measures particular sizes and particular layouts on particular insertion orders; the bound is for every layout and every history, including adversarial ones.", "anchors": ["/repo/src/map.rs:161-176", "/repo/src/map.rs:201-218", "/repo/src/map.rs:261-363", "/repo/src/map.rs:375-437", "/repo/src/inclusive_map.rs:197-214", "/repo/src/inclusive_map.rs:249-374", "/repo/src/inclusive_map.rs:386-460", "/repo/src/inclusive_map.rs:565-585"]}
{"id": "C88", "title": "How often insert and remove call comparisons and step functions", "statement": "The comparisons and step functions a caller supplies may be slow. Outside the B-tree itself, insert calls comparisons of keys (<, <=, ==, min, max) at most 6·t + 18 times (inclusive: 8·t + 22) and == or != on values at most 2·t + 4 times, t being the number of stored ranges touching the given one, and on inclusive ranges step functions at most 3·t + 7 times; remove compares keys at most 2·c + 8 times, c being the number of stored ranges having points in common with the given one, compares no values at all, and calls step functions at most 2·c + 4 times; with an invalid range both panic after exactly one comparison and nothing else. A history of n inserted or removed ranges compares keys at most 72·n + 12·len times (inclusive 94·n + 16·len), values at most 22·n + 4·len times and calls step functions at most 34·n + 6·len times, however many ranges the single calls touch. Together with the comparisons inside the B-tree (C87), insert compares keys at most (33·h + 8)·(t + 3) times (inclusive (33·h + 10)·(t + 3)) and remove at most (33·h + 6)·(c + 2) times in a map of fewer than 2·6^h − 4 ranges. Half-open ranges call no step function. The meter is exact: it counts one for every comparison of keys, comparison of values and call of a step function that the program with all these calls written out makes.", "quantifier": "all total preorders of keys, all values with == symmetric and transitive, all maps reachable through the API (also with exhausted ranges), all lawful step functions, all ranges, values and histories; for the totals all B-tree layouts and h", "why_tests_cant": "A test counts calls for particular maps; the bound holds whatever the map's size and contents, and the count of value comparisons decides e.g. whether a costly PartialEq is called quadratically often.", "anchors": ["/repo/src/map.rs:261-363", "/repo/src/map.rs:375-437", "/repo/src/map.rs:439-514", "/repo/src/map.rs:622-632", "/repo/src/inclusive_map.rs:249-374", "/repo/src/inclusive_map.rs:386-460", "/repo/src/std_ext.rs:12-67"]}
{"id": "C89", "title": "Half-open and inclusive containers agree in their queries and set operations", "statement": "Call a half-open map the twin of an inclusive one if it stores a..b+1 with the same value for every stored a..=b (none ending at the greatest key). The maps (sets) left by any history and by the same history written with half-open ranges are twins. Twins answer get, contains_key/contains, len, is_empty, first and last alike; overlapping yields the same entries in the same order, overlaps agrees, and gaps yields the same gaps (a..=b for the one, a..b+1 for the other); and for sets, union, intersection, | and & of twins give the same ranges.", "quantifier": "all totally ordered key types with lawful step functions (for queries: total preorders, ranges compared up to keys comparing equal), all histories without exhausted ranges and without ranges ending at the greatest key, all query ranges not ending at the greatest key", "why_tests_cant": "The two implementations are separate code (500 lines each, with different boundary arithmetic); tests compare neither with the other.", "anchors": ["/repo/src/map.rs:201-235", "/repo/src/inclusive_map.rs:510-600", "/repo/src/set.rs:92-180", "/repo/src/inclusive_set.rs:92-200", "/repo/src/operations.rs:1-217"]}
{"id": "C90", "title": "Keys that compare equal to everything (NaN)", "statement": "Let a key type have values, such as NaN under cmp = partial_cmp(..).unwrap_or(Equal), that are neither less nor greater than any other, so that the order is not transitive. (1) Keys that are never used do not matter: if the keys used are ordered as a lawful type's, then insert, remove, get_key_value and overlapping do on a B-tree of any layout what they do for the lawful type. (2) RangeMap never stores such a key: insert and remove with one at either end panic and change nothing, so over any history the map holds exactly what the calls without NaN give, and looking NaN up finds nothing. (3) RangeInclusiveMap refuses NaN in the same way if <= is false for it; but if <= is true for it (PartialOrd derived from Ord), insert of NaN..=NaN with a value not in the map returns normally and leaves NaN..=NaN as the only entry, which every lookup then finds.", "quantifier": "all lawful key types extended by NaN (and for (1) by any further keys), all values, all histories with arbitrary panics of user code, all B-tree layouts and rebalancings", "why_tests_cant": "The key type violates Ord's contract, so the behaviour of the B-tree depends on its layout, which tests can neither choose nor see.", "anchors": ["/repo/src/map.rs:261-363", "/repo/src/map.rs:375-437", "/repo/src/map.rs:161-218", "/repo/src/inclusive_map.rs:249-374", "/repo/src/inclusive_map.rs:386-460", "/repo/src/range_wrapper.rs:25-81"]}
{"id": "C91", "title": "No laws at all: comparisons, equality tests and step functions that answer anything", "statement": "Let `Ord`, `PartialEq` and the step functions answer whatever they like, differently at every call, panic anywhere, and let the B-tree underneath, misled by them, return any selection of its entries in order, drop any entries on removal, and on insertion add the entry or overwrite the value of any other. After any history of new/insert/remove/clear/extend, each call of which may have been cut short by a panic, a RangeMap and a RangeInclusiveMap hold only values that were given to insert or extend since the last clear, and only ranges whose ends were given (to insert, extend or remove) since then - for inclusive maps: come from such ends through answers of the step functions. get, get_key_value and contains_key change nothing and return only what is stored; overlapping changes nothing and yields a subsequence of what is stored; gaps changes nothing and the ends of its gaps are ends of stored ranges or of the given range (through step functions for inclusive maps). Honest answers are among the possible ones, and with them these programs end exactly as insert, remove, get_key_value, overlapping and gaps of the main model do.", "quantifier": "all key and value types, all answers of all comparisons, equality tests and step functions, all behaviours of the B-tree allowed by the text, all histories, all points of panic, all queries, any number of calls of next", "why_tests_cant": "A test exercises some wrong implementation of Ord, not every possible inconsistent sequence of answers with panics at every point.", "anchors": ["/repo/src/map.rs:261-346", "/repo/src/map.rs:375-515", "/repo/src/map.rs:155-218", "/repo/src/map.rs:728-803", "/repo/src/inclusive_map.rs:249-374", "/repo/src/inclusive_map.rs:386-585", "/repo/src/inclusive_map.rs:191-214", "/repo/src/inclusive_map.rs:835-921"]}
{"id": "C92", "title": "Union and intersection with comparisons that keep to no law", "statement": "Let the comparisons of keys answer anything at all, differently each time. As long as none of them panics, any number of calls of `next` of a `Union` or `Intersection` (half-open and inclusive) return without a panic: no `unwrap` fails and no loop runs for ever. A `Union` yields some ranges and then only `None`; it uses every range of its two inputs exactly once and in order; each range yielded is an input range, or starts where the first input range of its group starts and ends where another one of the same group ends. So it yields at most as many ranges as it was given, and at least one if it was given any. An `Intersection` yields some ranges and then only `None`, not before one input is used up; each range yielded starts where one range of a pair met on the way starts and ends where one of the two ends, with a different pair for each; so it yields fewer ranges than it was given. With honest comparisons the same programs compute what the model of C63 computes.", "quantifier": "for all lists of ranges (well formed or not), all answers of all comparisons, all numbers of calls, all key types", "why_tests_cant": "Tests use integer keys, whose comparisons are lawful; the sequences of possible answers are exponentially many for each pair of inputs, and the inputs are unbounded.", "anchors": ["/repo/src/operations.rs:40-98", "/repo/src/operations.rs:142-180", "/repo/src/operations.rs:225-245"]}
{"id": "C93", "title": "Pretty debug text, and what the debug text tells", "statement": "Written with `{:#?}`, a map (set, half-open or inclusive) without entries is `{}`; otherwise `{`, then the lines of each entry (`start..end: value,` resp. `start..end,`) indented by four blanks, then `}`. If the texts of keys and values can be told from the separators that follow them (`..`, `: `, `, `, `}`, resp. `,` and a line feed), then two containers with the same `{:?}` text, or the same `{:#?}` text, have the same texts of all their keys and values in the same order; and if equal texts mean equal keys and `==` values, maps are `==` exactly if their `{:?}` texts are the same. For unsigned integers the text determines the entries.", "quantifier": "for all maps and sets, all key and value types and all texts they write (those with the separator condition for the second part), all widths of integers", "why_tests_cant": "The crate's tests compare `{:?}` of three small maps and never use `{:#?}`; that no two different maps share a text is a claim about all pairs of maps.", "anchors": ["/repo/src/map.rs:601-608", "/repo/src/inclusive_map.rs:692-703", "/repo/src/set.rs:254-264", "/repo/src/inclusive_set.rs:280-290"]}
{"id": "C94", "title": "Comparisons that keep to no law: both ends, how many gaps, and the set operators", "statement": "Whatever the comparisons and step functions answer: (1) a sequence of next and next_back calls on overlapping(q) never changes the map, never panics of its own accord, returns stored entries in B-tree order with no entry returned from both ends, and returns None for every call after as many calls as there are entries; (2) gaps(q) yields at most one more gap than there are entries apart from degenerate gaps at the end of the query (half-open: end..end; inclusive: add_one(end)..=end), but of those it can yield without limit if the comparisons say so; (3) every end of every range in a | b and in a & b is an end of a range in a or b (inclusive sets: comes from such an end through answers of the step functions). With honest answers the programs considered compute what the main model computes.", "quantifier": "all maps and sets, all query ranges, all sequences of calls, all sequences of answers of user code (inconsistent, changing, panicking), all key and value types", "why_tests_cant": "Adversarial Ord implementations form an infinite decision tree; a test fixes one implementation and one query, and an endless iterator cannot be observed by a finite test at all.", "anchors": ["/repo/src/map.rs:789-818", "/repo/src/map.rs:724-763", "/repo/src/inclusive_map.rs:906-936", "/repo/src/inclusive_map.rs:835-875", "/repo/src/set.rs:417-431", "/repo/src/inclusive_set.rs:476-490"]}
{"id": "C95", "title": "Lengths add up", "statement": "Put the keys on a ruler: any assignment of whole numbers to keys that gives keys comparing equal the same number; `a..b` then has the length of its end minus its start (for inclusive ranges each key takes up a piece of the ruler that ends where the next key's begins). Then (1) after insert(r, v), for any choice of values closed under ==, the total length of the stored ranges with such values, plus the total length of the parts in r of what overlapping(r) yielded before with such values, is the total before plus, if v is chosen, the length of r; remove(r) likewise without the last term; (2) the gaps in q and the parts in q of what overlapping(q) yields are together as long as q; insert makes the total longer by exactly the gaps in the range; first start to last end is the total plus the gaps between; (3) what union and intersection yield (and likewise `|` and `&`) are together as long as the two sets; (4) on a ruler that goes up with the keys a map whose keys are all in another has at most its total; (5) where keys are numbered like integers the totals are the numbers of keys with a chosen value, resp. in the set.", "quantifier": "all reachable maps and sets (half-open; inclusive with lawful step functions and no exhausted ranges inserted), all valid ranges, all values, all rulers, all choices of values closed under ==", "why_tests_cant": "The balance is claimed for every ruler at once, which no finite collection of maps and weights establishes; the crate has no test about lengths at all.", "anchors": ["/repo/src/map.rs:261-363", "/repo/src/map.rs:375-437", "/repo/src/map.rs:724-763", "/repo/src/operations.rs:135-246", "/repo/src/inclusive_map.rs:249-374", "/repo/src/inclusive_map.rs:386-460"]}
{"id": "C96", "title": "The example program and the benchmarks", "statement": "The roster example, with any people, any number of rounds, any length of shifts (any function on times giving later times) and any one shift covered by anyone, does not panic; afterwards whoever the plan (with the covered shift changed) has on duty is on the roster, and nobody outside it; and what is printed is exactly the plan with neighbouring shifts of the same person taken together (for the people and shift of the example: eight rows, the fourth and fifth shifts in one). The benchmarks `insert` and `operations` on RangeMap panic exactly if one of the generated ranges is empty (which `any::<Range<i64>>()` can give) and otherwise compute the map of all their operations; those on RangeInclusiveMap do so exactly if a range ends before it starts; `lookups` never panics.", "quantifier": "all lists of people, numbers of rounds, starts, shifts, key types and functions giving later keys; all lists of benchmark entries, operations and lookups", "why_tests_cant": "The example is a program without assertions, and benchmarks draw random data and check nothing; the claim is about all people, rounds and data.", "anchors": ["/repo/examples/roster.rs:5-31", "/repo/benches/benches.rs:14-18", "/repo/benches/benches.rs:45-97", "/repo/benches/benches.rs:108-160"]}
{"id": "C97", "title": "Equal containers are interchangeable", "statement": "If two maps (or sets) are ==, then insert, remove, clear and extend with equal arguments (ranges whose bounds compare equal, values that are ==) panic both or neither, with the same panic, and leave == containers, and so do histories of such calls; lookups of equal keys, len, is_empty, the first and last entry, overlapping (from either end), overlaps, gaps, == and cmp, union, intersection, | and & give equal results.", "quantifier": "all pairs of == maps and sets (for gaps of inclusive maps: reachable ones), all arguments that compare equal, all sequences of calls on the iterators; all total preorders of keys, all equivalence relations == on values; for inclusive ranges all step functions that treat equal keys alike", "why_tests_cant": "The crate's tests use keys and values for which == is identity, where there is nothing to observe; with Eq coarser than identity, the internal choice of which of two equal bounds or values is stored could become visible in a later operation.", "anchors": ["/repo/src/map.rs:54-62", "/repo/src/inclusive_map.rs:67-75", "/repo/src/set.rs:23", "/repo/src/map.rs:261-370", "/repo/src/map.rs:375-410"]}
{"id": "C98", "title": "How many ranges there are", "statement": "union yields as many ranges as the two sets have together, less one for every pair of a range of the one and a range of the other that share a key; intersection yields one range per such pair (so the two iterators together yield as many ranges as the sets have), and a & b stores that many; a | b stores as many ranges as the two sets, less one for every pair that share a key or touch. After insert(r, v) a map has one range for r, none for a range with an equal value that overlaps or touches r, and of every other range as many as remain of it if the keys of r are cut out; after remove(r) the same without the range for r. gaps(q) yields one range if the start of q is free, and one for every stored range that ends within q at (or, for inclusive ranges, before) a free key.", "quantifier": "all reachable sets and maps (inclusive: lawful step functions; for insert, remove and gaps also with exhausted ranges in the history), all non-empty ranges, all values; all total preorders of keys", "why_tests_cant": "The counts are identities about all configurations of overlapping, touching and nested ranges of two containers of any size; tests compare single results.", "anchors": ["/repo/src/operations.rs:135-181", "/repo/src/operations.rs:217-246", "/repo/src/map.rs:261-370", "/repo/src/map.rs:375-410", "/repo/src/map.rs:722-762", "/repo/src/inclusive_map.rs:249-384", "/repo/src/inclusive_map.rs:386-420", "/repo/src/inclusive_map.rs:828-878", "/repo/src/set.rs:417-431", "/repo/src/inclusive_set.rs:476-490"]}
{"id": "C99", "title": "What |, & and collecting in order cost", "statement": "Collecting or extending by n valid ranges that come in ascending order, do not overlap each other and lie behind everything stored calls BTreeMap::range exactly 2·n times, BTreeMap::insert exactly n times and BTreeMap::remove exactly once for every range that is merged with one before it (in all as often as the number of ranges stored before plus n exceeds the number stored afterwards), whatever the size of the map; collecting what a map's own iterator yields therefore takes exactly 2·len, len and 0 calls and gives the same map. For sets: a | b calls range twice and insert once for every range that a.union(&b) yields, that is a.len() + b.len() less the number of pairs sharing a key, and remove exactly once for every pair of a range of a and a range of b that touch (inclusive: are adjacent) without sharing a key; a & b calls range twice and insert once for every range of the result, and never remove. All comparisons of keys together - by the Union or Intersection iterator, by the insertions, and inside the B-tree of the result - are at most (242·h + 101)·n for | and (242·h + 98)·n for & (inclusive: 123 and 120) where n = a.len() + b.len() and n + 1 < 6^h, hence O(n log n); the step functions are called at most 34·n times. insert and remove of a set cost what they cost in a map (C59).", "quantifier": "all total preorders of keys, all values with == symmetric and transitive, all maps and sets reachable through the API (for | and & of inclusive sets: without exhausted ranges), all lawful step functions, all lists of items as described; for the comparisons all ways of rebalancing that keep a B-tree and all h", "why_tests_cant": "Benchmarks can show that a few sizes are fast on one machine; they cannot show that the number of B-tree calls is exactly linear for all inputs, that & never deletes what it has just inserted, or that no pair of sets makes | quadratic.", "anchors": ["/repo/src/set.rs:266-286", "/repo/src/set.rs:417-431", "/repo/src/inclusive_set.rs:292-312", "/repo/src/inclusive_set.rs:476-490", "/repo/src/map.rs:261-363", "/repo/src/inclusive_map.rs:249-374"]}
{"id": "C100", "title": "Maps made from the entries of maps", "statement": "Programs users write because there is no method for it never panic and do what they are meant to. Collecting the entries with f applied to each value maps every key to f of its value, leaves at most as many entries as there were, and leaves the ranges as they are exactly if no two entries with no key between them get values that are equal (so always if f is injective up to ==). Collecting some of the entries gives the map with exactly these entries; with those whose value p accepts, a key keeps its value if p accepts it and has none otherwise. Collecting the ranges into a set gives the set of the keys that have a value: it contains and overlaps the same, has the same gaps, and at most as many ranges. Collecting the ranges of the entries whose value == v gives the set of the keys with that value, with exactly these ranges. Two maps are joined by collecting, for each entry of a and each entry b.overlapping yields for its range, the common part with both values: a key that has a value in both gets the pair, no other key gets any, no two of the collected entries are merged, and there is one for every pair of entries that share a key. The same for RangeInclusiveMap and RangeInclusiveSet.", "quantifier": "all maps reachable through the API (inclusive: lawful step functions, no exhausted ranges inserted), all functions f, predicates p, values v, keys and non-empty query ranges, value types with a symmetric transitive == (reflexive for the bound on the number of entries); key type any total preorder, for the gaps one where only equal keys compare as equal", "why_tests_cant": "Relates whole maps of any size to what any function or predicate makes of them; that no two of the joined entries merge depends on how any two maps lie against each other.", "anchors": ["/repo/src/map.rs:203-215", "/repo/src/map.rs:261-351", "/repo/src/map.rs:610-633", "/repo/src/set.rs:107-115", "/repo/src/inclusive_map.rs:249-372", "/repo/src/inclusive_map.rs:567-580", "/repo/src/inclusive_map.rs:705-729", "/repo/src/inclusive_set.rs:159-189"]}
{"id": "C101", "title": "How stored exhausted flags are got rid of, and how they stay", "statement": "Whatever exhausted RangeInclusives were inserted into a RangeInclusiveMap or RangeInclusiveSet, writing it with serde and reading it back never fails or panics and gives exactly the container that the same history gives when the flags of all ranges are cleared beforehand. Collecting its entries with every range written anew from its two ends gives the same; collecting the entries as they are gives the container with its flags. The map is == to the one read back exactly if it stores no flag (cmp says Equal in any case). Inserting a stored range anew with its value clears the flag of that entry and leaves all others as they are.", "quantifier": "all histories with any flags on any ranges, any total preorder on the keys, lawful step functions, value types with a symmetric transitive == (reflexive for the comparison and for inserting anew)", "why_tests_cant": "No test of the crate stores an exhausted range; the claim is about every history and every place where flags may be left.", "anchors": ["/repo/src/inclusive_map.rs:67-75", "/repo/src/inclusive_map.rs:249-372", "/repo/src/inclusive_map.rs:705-802", "/repo/src/inclusive_set.rs:292-381"]}
{"id": "C102", "title": "Inclusive sets have no preferred direction", "statement": "Turn the order of the keys around, swap add_one with sub_one and the two ends of every range. Then any history of calls on a RangeInclusiveSet stores the reflected ranges in the opposite order and panics at the same calls; contains, first and last (exchanged), overlaps and gaps answer with the reflected results; union and intersection yield the reflected ranges in the opposite order, although both walk through the sets from the front and union leaves ranges apart that are merely adjacent; and | and & give the reflected sets.", "quantifier": "all reachable RangeInclusiveSets (no exhausted ranges inserted), all pairs of them, all histories, all queries, lawful step functions, key types where only equal keys compare as equal (for contains, first, last and overlaps any total preorder)", "why_tests_cant": "Relates every behaviour to that over another key type; the code treats the two directions differently throughout, so each pair of cases would have to be tested at every relative position of the ranges.", "anchors": ["/repo/src/operations.rs:1-246", "/repo/src/inclusive_set.rs:96-216", "/repo/src/inclusive_set.rs:383-460", "/repo/src/inclusive_map.rs:249-580"]}
{"id": "C103", "title": "An interrupted Union loses at most one range per interruption", "statement": "Suppose calls of next of a Union iterator are interrupted by panics of comparisons or clones of keys, and the caller catches them and goes on. Then there are at most as many lost ranges, among those the uninterrupted iterator yields, as there were interrupted calls, and: every range returned is one the uninterrupted iterator yields or lies within a lost one; and once a call has returned None, every range that is not lost has been returned. So a panic damages only the range being put together at that moment.", "quantifier": "all pairs of reachable sets of either kind, numbers of calls, and all sets of points at which user code panics", "why_tests_cant": "no test makes user code panic; the points of interruption, and how far a range has been put together by then, are unbounded in number", "anchors": ["/repo/src/operations.rs:142-180", "/repo/src/set.rs:107-115", "/repo/src/inclusive_set.rs:202-210"]}
{"id": "C104", "title": "Which calls of a history matter", "statement": "Two histories of calls give == containers exactly if, for every key, the last calls that write it (whose range is valid and covers it; clear writes all) write == values or both leave none. So calls can be left out of a history wherever it stands if every key they write is written again later; and, clear apart, calls that do not change the result whatever was called before are such calls. Calls that write no common key can be exchanged, and an insertion or removal can be made in two pieces that meet, anywhere in a history. The same for all four containers.", "quantifier": "all histories before, between and after, all keys of a total preorder, values with reflexive, symmetric and transitive ==; inclusive: lawful step functions, no exhausted ranges inserted", "why_tests_cant": "compares the outcomes of all histories of any length with calls left out or exchanged; the coalescing done by the calls in between differs in each", "anchors": ["/repo/src/map.rs:261-370", "/repo/src/map.rs:375-460", "/repo/src/map.rs:622-633", "/repo/src/inclusive_map.rs:249-460", "/repo/src/set.rs:93-141", "/repo/src/inclusive_set.rs:123-161"]}
{"id": "C105", "title": "A first-fit allocator built on gaps, insert and remove", "statement": "The usual first-fit allocator - take the first gap of gaps(&outer) whose beginning has room for a block of the wanted size, and insert the block there under a value of its own; release a block by remove - is correct. It fails exactly if no block of that size lies unused within outer, and otherwise takes the first such block. Storing the block changes no other key, and releasing it at once gives a map == to the one before. After any sequence of allocations (of any sizes) and releases, iter() lists exactly the blocks allocated at the time, each under its own range, within outer and without a common key. The same with inclusive ranges and checked addition, up to the ends of the key type.", "quantifier": "all reachable maps, outer ranges, block sizes given by any monotone partial function from the start to the end of a nonempty block, defined downwards; all sequences of allocations and releases; inclusive: lawful step functions", "why_tests_cant": "runs of any length with any sizes; the claim that nothing free was overlooked is about all positions in the key type, and the claim about iter() about all orders of release", "anchors": ["/repo/src/map.rs:192", "/repo/src/map.rs:261-370", "/repo/src/map.rs:375-460", "/repo/src/inclusive_map.rs:249-460", "/repo/src/inclusive_map.rs:551"]}
{"id": "C106", "title": "Values accumulated over overlapping ranges", "statement": "To change the values over a non-empty range q rather than replace them, a program collects overlapping(&q), cuts the entries to q, applies f to their values, adds the ranges of gaps(&q) with a starting value d (or leaves them out), and passes it all to extend. That never panics; afterwards each key of q that had a value v has f(v), each that had none has d (or still none), and the keys outside q are as they were. Run for each of a list of weighted non-empty ranges on an empty map, it gives each key what the weights of the ranges covering it add up to, in the order of the updates, and no value to keys no range covers; with the weight one that is the number of ranges covering the key. If the weights commute, any two orders of the updates end with maps that are ==. The same with inclusive ranges, up to the ends of the key type.", "quantifier": "all reachable maps, non-empty ranges, functions f and starting values (or none); all lists of weighted non-empty ranges; inclusive: lawful step functions, ranges not iterated", "why_tests_cant": "lists of any length with any overlaps, and any function on the values; the claims are about every key", "anchors": ["/repo/src/map.rs:192", "/repo/src/map.rs:203", "/repo/src/map.rs:627", "/repo/src/inclusive_map.rs:551", "/repo/src/inclusive_map.rs:567", "/repo/src/inclusive_map.rs:722"]}
{"id": "C107", "title": "The nearest keys with and without a value", "statement": "For a non-empty range q: overlapping(&q).next() returns an entry e such that the later of the two starts is the first key of q that has a value (and has the value of e), or None if no key of q has one. overlapping(&q).next_back() returns the entry whose part inside q holds the last keys of q that have a value: all of that part has the value of e and nothing of q behind it has any; or None if no key of q has one. gaps(&q).next() returns the first run of keys of q without a value: everything of q before it has values, nothing in it has, and the key that follows it has one unless q ends there; or None if all of q has values. The entry get_key_value(&k) returns tells where the value changes next: up to its end all keys from k on have the value of k, and the value of the key that follows, if it has one, is not == to it. The same for inclusive maps, where these calls do not panic even if q reaches to the greatest key.", "quantifier": "all reachable maps (inclusive: built from ranges that were not iterated), ranges and keys; key types with any total preorder; values with any symmetric and transitive ==; inclusive: lawful step functions", "why_tests_cant": "the claims say that no key was overlooked, for every map and every range; tests sample both", "anchors": ["/repo/src/map.rs:203", "/repo/src/map.rs:192", "/repo/src/map.rs:790-819", "/repo/src/map.rs:728-761", "/repo/src/inclusive_map.rs:551", "/repo/src/inclusive_map.rs:567", "/repo/src/inclusive_map.rs:906-936"]}
{"id": "C108", "title": "Toggling ranges, and reserving them first come, first served", "statement": "Toggling a non-empty range q of a set means: collect gaps(&q), remove(q), extend with the gaps collected. It never panics; afterwards the set contains a key of q exactly if it did not before, and every other key exactly if it did before. After toggling the ranges of a list one after another a key is contained exactly if it was before and an even number of the ranges contain it, or it was not and an odd number do (the even-odd rule). Hence the order does not matter, toggling a range twice gives back a set equal (==) to the original one, and toggling every range of a set b in a gives the symmetric difference of a and b. Reserving a range means: if overlaps(&q) refuse it, else insert(q). Reserving the ranges of a list one after another, beginning with an empty set, never panics and grants exactly the requests that share no key with one granted before; those granted are pairwise disjoint, the set contains exactly their keys, and each refused one shares a key with one granted. The same for inclusive sets, where toggled ranges may carry the exhausted flag (they are only removed), those reserved do not.", "quantifier": "all reachable sets (inclusive: built from ranges that were not iterated), all lists of non-empty ranges; key types with any total preorder; inclusive: lawful step functions", "why_tests_cant": "the even-odd rule and first come, first served hold for every list of ranges of any length and overlap; a test fixes one list", "anchors": ["/repo/src/set.rs:126", "/repo/src/set.rs:139", "/repo/src/set.rs:152", "/repo/src/set.rs:170", "/repo/src/set.rs:281", "/repo/src/inclusive_set.rs:146", "/repo/src/inclusive_set.rs:159", "/repo/src/inclusive_set.rs:168", "/repo/src/inclusive_set.rs:186", "/repo/src/inclusive_set.rs:307"]}
{"id": "C109", "title": "The provided methods of the iterators", "statement": "The crate's iterators implement next, next_back and size_hint only; the other methods are those std provides. On every one of them (iter and into_iter of the four containers, overlapping, gaps, union, intersection) count, last, nth, find, any, all, position, fold and rev end, do not panic and return what they return on the list of the items; after nth and find the iterator goes on with the item behind the one returned. On iter(): count() is len(), last() is last_range_value() (for sets last()), rev().last() is first_range_value() (first()), and finding the range that contains a key, from either end, gives what get_key_value returns. On overlapping(&q): count() is the number of entries sharing a key with q, overlaps(&q) tells whether there is one, last() returns what next_back() would and rev().last() what next() would, and finding the range that contains a key of q gives what get_key_value returns. any(|r| r.contains(&k)) is true on gaps(&q) exactly if k is in q and contains_key(&k) is false, on union exactly if one of the sets contains k, on intersection exactly if both do.", "quantifier": "all reachable maps and sets (inclusive: built from ranges that were not iterated, lawful step functions), all ranges, keys, predicates and functions folded; all total preorders of keys; the general statements hold for every iterator that yields a list and then None for ever", "why_tests_cant": "last() of overlapping walks forward past the end of the query while next_back() walks backward from the end of the map; that they agree for every map and query, and so do the other pairs, is a statement about all of them", "anchors": ["/repo/src/map.rs:529-555", "/repo/src/map.rs:722-762", "/repo/src/map.rs:784-820", "/repo/src/inclusive_map.rs:622-648", "/repo/src/inclusive_map.rs:828-878", "/repo/src/inclusive_map.rs:900-937", "/repo/src/set.rs:197-219", "/repo/src/set.rs:369-415", "/repo/src/inclusive_set.rs:223-243", "/repo/src/inclusive_set.rs:400-448", "/repo/src/operations.rs:135-181", "/repo/src/operations.rs:218-246"]}
{"id": "C110", "title": "Debug with a writer that may fail", "statement": "{:?} and {:#?} of the four containers never panic (no assertion of the std builders fails), whatever the writer and the Debug of keys and values return: they write the opening brace, the entries with what separates them and the closing brace in turn, and stop at the first that fails, returning its error. If keys and values write pieces and hand on errors, every writer is given the same pieces, which together are the text of C58 or C93, up to the first piece it refuses. So: format! gives exactly that text; what a writer has taken is always a beginning of it, and all of it if Ok is returned; writing to a buffer of n characters succeeds exactly if the text has at most n; nothing is written after a refusal, and the result is Err exactly if a write was refused.", "quantifier": "all maps and sets, both formats, all writers (any state, failing at any point, taking any part of a piece), all Debug implementations of keys and values (the statements about the text: those that write a sequence of pieces and hand on errors)", "why_tests_cant": "a test uses one writer failing at a few points; the claim is about every writer and every point of failure, and about Debug implementations that return an error or swallow one", "anchors": ["/repo/src/map.rs:604-608", "/repo/src/inclusive_map.rs:695-703", "/repo/src/set.rs:257-264", "/repo/src/inclusive_set.rs:283-290"]}
{"id": "C111", "title": "Every program sees plain maps", "statement": "A program that holds any number of RangeMaps (RangeInclusiveMaps) and makes any calls - insert, remove, clear, extend, collect, clone, extending one map with another, get, get_key_value, contains_key, len, is_empty, first and last, iter and overlapping asked at both ends, overlaps, gaps, == - each chosen from the answers so far, and going on after a panic, hears what it could hear from plain functions from keys to optional values: insert and remove assign to the keys of the range, extend assigns in turn up to the first empty range, the entries are the longest runs of equal values in order, the gaps are the longest runs of unmapped keys, == compares the functions, and the calls that panic are exactly those with an empty (inverted) range. If keys that compare equal are equal, the plain functions leave no choice: the answers are exactly determined by them, so that no program can tell the container from plain functions.", "quantifier": "all programs (functions from the answers so far to the next call), all numbers of calls, all maps held, all keys and values (values with a lawful ==); for inclusive maps all lawful step functions and ranges that are not exhausted", "why_tests_cant": "a test runs a few fixed sequences of calls on one map and compares a few answers; the claim is about every adaptive sequence on several maps and every answer", "anchors": ["/repo/src/map.rs:54-62", "/repo/src/map.rs:112-246", "/repo/src/map.rs:261-470", "/repo/src/map.rs:610-632", "/repo/src/inclusive_map.rs:67-75", "/repo/src/inclusive_map.rs:126-247", "/repo/src/inclusive_map.rs:249-610", "/repo/src/inclusive_map.rs:705-727"]}
{"id": "C112", "title": "Every program sees plain sets", "statement": "A program that holds any number of RangeSets (RangeInclusiveSets) and makes any calls - insert, remove, clear, extend, collect, clone, extending one set with another, | and &, contains, get, len, is_empty, first and last, iter and overlapping asked at both ends, overlaps, gaps, union, intersection, == - each chosen from the answers so far, and going on after a panic, hears what it could hear from plain sets of keys: the ranges of a set, its gaps and the intersection are the longest runs of keys, union yields the finest division of the keys into ranges that cuts no range of either set, == compares the plain sets, and the calls that panic are exactly those given an empty (inverted) range; | and & never panic. If keys that compare equal are equal, the plain sets determine the answers, so that no program can tell the container from plain sets.", "quantifier": "all programs (functions from the answers so far to the next call), all numbers of calls, all sets held, all keys; for inclusive sets all lawful step functions and ranges that are not exhausted", "why_tests_cant": "a test runs a few fixed sequences of calls and compares a few answers; the claim is about every adaptive sequence on several sets and every answer, including what the lazy set operations yield", "anchors": ["/repo/src/set.rs:58-184", "/repo/src/set.rs:266-286", "/repo/src/set.rs:417-431", "/repo/src/operations.rs:1-160", "/repo/src/inclusive_set.rs:67-210", "/repo/src/inclusive_set.rs:292-312", "/repo/src/inclusive_set.rs:476-490"]}
{"id": "C113", "title": "Every program, with values whose == is not equality", "statement": "C111 for values with any symmetric and transitive ==: values that compare equal may differ, and a value may differ from itself like NaN. A program that holds any number of RangeMaps (RangeInclusiveMaps) and makes any calls, each chosen from the answers so far and going on after a panic, hears what it could hear from lists of entries, one for each map: every query is read off the entries; a call changes only the entries of the map it is made on, not at all if it panics (except extend, which keeps what it has inserted), and a clone has the very same entries; after every call the entries give every key a value that is, up to ==, the one the plain map of C111 gives it, touching entries never have == values, and == on maps is == on the value of every key. If every value is == to itself, the plain maps determine the ranges of the entries, and their values up to ==.", "quantifier": "all programs (functions from the answers so far to the next call), all numbers of calls, all maps held, all keys, all value types with a symmetric and transitive ==; for inclusive maps all lawful step functions and ranges that are not exhausted", "why_tests_cant": "the tests use values whose == is equality, so they cannot see which of two == values is kept, nor how values that differ from themselves behave in long adaptive sequences of calls", "anchors": ["/repo/src/map.rs:54-62", "/repo/src/map.rs:261-470", "/repo/src/map.rs:610-632", "/repo/src/inclusive_map.rs:67-75", "/repo/src/inclusive_map.rs:249-610", "/repo/src/inclusive_map.rs:705-727"]}
{"id": "C114", "title": "Iterators that a program keeps open", "statement": "A program that holds any number of RangeMaps (RangeInclusiveMaps) and any number of iterators made by iter, overlapping, into_iter (of a map taken out, which is then empty) and gaps, and that asks these iterators at either end (gaps at the front) in any order and between any other calls, each chosen from the answers so far and going on after a panic, hears what it could hear from plain maps with lists beside them: an iterator is the list of the longest runs (those that overlap the query; the longest runs of unmapped keys of the query) of the plain map at the time it was made, each question takes one item from its end of the list, an empty list answers None for ever, and nothing else changes the list. If keys that compare equal are equal, the plain maps and the lists leave no choice about any answer.", "quantifier": "all programs (functions from the answers so far to the next call), all numbers of calls, maps and iterators, all keys and values (values with a lawful ==); for inclusive maps all lawful step functions and ranges that are not exhausted", "why_tests_cant": "a test asks one or two iterators in a few fixed orders; the claim is about every adaptive interleaving of any number of iterators with each other and with other calls", "anchors": ["/repo/src/map.rs:118-126", "/repo/src/map.rs:183-246", "/repo/src/map.rs:525-600", "/repo/src/map.rs:713-820", "/repo/src/inclusive_map.rs:126-247", "/repo/src/inclusive_map.rs:618-690", "/repo/src/inclusive_map.rs:808-935"]}
{"id": "C115", "title": "Iterators over sets that a program keeps open", "statement": "A program that holds any number of RangeSets (RangeInclusiveSets) and any number of iterators made by iter, overlapping, into_iter (of a set taken out, which is then empty), gaps, union and intersection, and that asks these iterators (the first three at either end) in any order and between any other calls, each chosen from the answers so far and going on after a panic, hears what it could hear from plain sets of keys with lists beside them: an iterator is the list of the longest stretches of the plain set (those that overlap the query; of the keys of the query that are missing; of the keys in both sets; for union the division of the stretches of both sets into the unions of chains that overlap) at the time it was made, each question takes one range from its end of the list, an empty list answers None for ever, and nothing else changes the list. If keys that compare equal are equal, the plain sets and the lists leave no choice about any answer.", "quantifier": "all programs (functions from the answers so far to the next call), all numbers of calls, sets and iterators, all keys; for inclusive sets all lawful step functions and ranges that are not exhausted", "why_tests_cant": "a test drains each iterator at once, and keeps no two unions or intersections open side by side; the claim is about every adaptive interleaving of any number of iterators with each other and with changes of the sets", "anchors": ["/repo/src/set.rs:84-90", "/repo/src/set.rs:107-115", "/repo/src/set.rs:143-172", "/repo/src/set.rs:193-262", "/repo/src/set.rs:362-415", "/repo/src/inclusive_set.rs:203-290", "/repo/src/inclusive_set.rs:388-447", "/repo/src/operations.rs"]}
{"id": "C116", "title": "A program cannot tell the two kinds of containers apart", "statement": "Over keys where each key but the greatest has a next one, take a program for RangeInclusiveMap and one for RangeMap that make the same calls, with start..=stop for the one where the other says start..stop+1 (and the range of the first never ends at the greatest key). Then both hear the same answers call for call, with start..stop+1 for start..=stop, the same panics, numbers, flags and values, through any number of maps, of iterators kept open, and any calls chosen from the answers so far. Every program for RangeMap whose ranges do not end at the least key can in this way be run on RangeInclusiveMaps, and hears exactly what it hears from RangeMaps. The same holds of RangeInclusiveSet and RangeSet, including iterators over unions and intersections.", "quantifier": "all programs (functions from the answers so far to the next call) for either kind, all numbers of calls, containers and iterators, all keys with lawful steps, all values whose == is equality", "why_tests_cant": "the two kinds are separate code with separate tests; no test runs one program against both, and the claim is about all programs of any length", "anchors": ["/repo/src/map.rs", "/repo/src/inclusive_map.rs", "/repo/src/set.rs", "/repo/src/inclusive_set.rs"]}
{"id": "C117", "title": "A program learns nothing about its keys and values but how they compare", "statement": "Let f turn keys into keys of another type and keep their order both ways, and let g turn values into other values and keep == both ways. A program that makes the same calls with f(k) for k and g(v) for v hears the same answers with f(k) for k and g(v) for v: the same ranges, values, flags, numbers and panics, from any number of maps and iterators kept open. So every program can be run on the other keys and values and hears, translated back, exactly what it hears on its own. For the inclusive kinds f must also carry add_one and sub_one over to their counterparts; a program over one unsigned integer type then hears the same over every wider one, although the greatest key is another one there. The same holds of both kinds of sets, including iterators over unions and intersections.", "quantifier": "all programs (functions from the answers so far to the next call), all numbers of calls, containers and iterators, all key types, all order embeddings f, all g that keep ==, all == on values (for the inclusive map: symmetric and transitive)", "why_tests_cant": "it relates two runs of an arbitrary program over two arbitrary types; tests run fixed programs over fixed types", "anchors": ["/repo/src/map.rs", "/repo/src/inclusive_map.rs", "/repo/src/set.rs", "/repo/src/inclusive_set.rs", "/repo/src/operations.rs"]}
{"id": "C118", "title": "A program on inclusive ranges cannot tell up from down", "statement": "Let two programs use RangeInclusiveMaps, one over keys K with steps S, one over the same keys in the opposite order (std::cmp::Reverse) with add_one and sub_one exchanged, and let the second say upside down what the first says: b..=a in the opposite order for a..=b, next_back for next, first for last, and so on. Then the second hears upside down exactly what the first hears, through any number of maps, iterators kept open, and calls chosen from the answers so far. So every program that uses no iterator with one end only (gaps) can be run upside down and hears, turned back, what it hears. The same holds of RangeInclusiveSet (without the iterators gaps, union and intersection, but with the operators | and &).", "quantifier": "all programs (functions from the answers so far to the next call) without one-ended iterators, all numbers of calls, containers and iterators, all linearly ordered keys with lawful steps, all values whose == is equality", "why_tests_cant": "it relates two runs of an arbitrary program in two orders of the keys; the code treats the two directions by different means, and no test turns the order around", "anchors": ["/repo/src/inclusive_map.rs", "/repo/src/inclusive_set.rs"]}
{"id": "C119", "title": "A program cannot tell equal containers apart", "statement": "Let two programs use the maps or sets of this crate (any number of them, with iterators kept open, and calls chosen from the answers so far), and let them go on alike whenever they heard answers alike: keys that compare equal, values that are ==. If at the start the containers of the one are == to those of the other, then through all calls both hear alike: the same flags, lengths, panics and ends of iterators, and keys and values that compare equal. So a container may at any time be replaced by one that is == to it, however either came about. For values whose == obeys no law at all the same holds if alike means that no == tells the values apart.", "quantifier": "all programs that look at keys and values with their own comparisons only, all numbers of calls, containers and kept iterators, all keys with a total preorder (keys that compare equal may differ), all values with ==; for inclusive containers: lawful steps and containers that come from calls", "why_tests_cant": "it relates two runs of an arbitrary program on containers with unequal representations; tests use keys and values for which equal means identical", "anchors": ["/repo/src/map.rs", "/repo/src/set.rs", "/repo/src/inclusive_map.rs", "/repo/src/inclusive_set.rs"]}
{"id": "C120", "title": "Parts of a program that use different keys of one container do not disturb each other", "statement": "Let two programs use the same maps (or sets), taking turns in any order, each call chosen from the answers the program itself has heard. If the one asks about keys in P only (get, contains, overlaps and gaps inside P; calls that tell the ends of stored ranges or look at a whole container need all its keys) and the other changes keys in Q only, and P and Q have no key in common, then the one hears exactly what it hears when it runs alone and leaves the keys in P as it leaves them alone, although stored ranges of the two are joined and split by each other's calls. So two programs that keep to keys of their own both hear what they hear alone; and a program that asks about keys in P only hears the same from any two families of containers that agree on P.", "quantifier": "all programs, all interleavings, all sets P and Q of keys (for each container) without a common key, all linearly ordered keys, all values whose == is equality, all reachable containers at the start; half-open and inclusive maps and sets (inclusive: lawful steps)", "why_tests_cant": "it speaks of all pairs of programs and all interleavings; tests run one sequence of calls at a time and never compare it with a run without the other part", "anchors": ["/repo/src/map.rs", "/repo/src/set.rs", "/repo/src/inclusive_map.rs", "/repo/src/inclusive_set.rs"]}
{"id": "C121", "title": "In which order the parts of a program take their turns does not matter", "statement": "Let any number of programs use the same maps (or sets), one call at a time, each call chosen from the answers the program itself has heard, and let no program change keys that another one asks about (several may ask about the same keys; what a program changes is among what it asks about). Then in whatever order they take the same turns, every program hears the same answers and the containers at the end are the same, entry for entry, although stored ranges of different programs are joined and split on the way; and each program hears what it hears when it runs alone. In particular two such calls may be swapped.", "quantifier": "all families of programs, all sequences of turns and all permutations of them, all sets of keys asked about and changed, all linearly ordered keys, all values whose == is equality, all reachable containers at the start; half-open and inclusive maps and sets (inclusive: lawful steps)", "why_tests_cant": "it compares all orders of all sequences of turns of any number of programs; a test runs one order", "anchors": ["/repo/src/map.rs", "/repo/src/set.rs", "/repo/src/inclusive_map.rs", "/repo/src/inclusive_set.rs"]}
{"id": "C122", "title": "A map is a family of sets, one for each value", "statement": "For a history of calls on a map and a value v, keep a set beside the map: insert a range into the set where the map gets it with the value v, remove it where the map gets it with another value or loses it. Then the ranges of the set are exactly the ranges that the map stores with the value v, in the same order; a key has the value v exactly if the set for v contains it; the map has as many ranges as the sets for its values have together; and two histories leave the same map exactly if they leave the same set for every value. The set that gets every range that the map gets, whatever the value, contains the keys that have a value, and its gaps are the gaps of the map.", "quantifier": "all histories (calls that panic and extend that stops in the middle among them), all values, all linearly ordered keys, == on values is equality (for the last sentence any PartialEq); half-open and inclusive (lawful steps, no exhausted range inserted)", "why_tests_cant": "it relates a map to as many sets as there are values after every history; the crate tests maps and sets apart from each other", "anchors": ["/repo/src/map.rs", "/repo/src/set.rs", "/repo/src/inclusive_map.rs", "/repo/src/inclusive_set.rs"]}
{"id": "C123", "title": "A map may be kept in two pieces, cut at any key", "statement": "Cut the ranges of every call at a key c, make the parts below c on one map and the parts from c on on another. Then the one answers get for every key below c as the whole map does and has nothing else, and the other does so for the rest; the ranges that the two store are the ranges of the whole, cut at c and in the same order; together they store as many ranges as the whole or one more; and collecting what they yield, the one after the other, gives the whole map again. The same holds of sets with contains for get. For inclusive containers the cut is between two neighbouring keys.", "quantifier": "all histories (calls that panic and extend that stops in the middle among them), all keys to cut at, all linearly ordered keys, == on values is equality; half-open and inclusive (lawful steps, no exhausted range inserted)", "why_tests_cant": "it compares three maps after every history and for every place of the cut; the crate has no test that splits a history", "anchors": ["/repo/src/map.rs", "/repo/src/inclusive_map.rs", "/repo/src/set.rs", "/repo/src/inclusive_set.rs"]}
{"id": "C124", "title": "A view of a map may be kept up to date call by call", "statement": "Let g turn some values into others and reject the rest. Keep a second map beside a map: where the map gets a range with the value v, insert the range with g(v) into the second map, or remove the range from it if g rejects v; remove and clear alike. Then the second map gives for every key g of what the map gives; it is the map one gets by collecting the entries of the map whose value g accepts, with the value replaced; it stores those very ranges exactly if no two neighbours that touch get the same value; and it never has more ranges than the map.", "quantifier": "all histories (calls that panic and extend that stops in the middle among them), all g, injective or not, all linearly ordered keys, == on both types of values is equality; half-open and inclusive (lawful steps, no exhausted range inserted)", "why_tests_cant": "it compares two maps after every history, for every function on the values", "anchors": ["/repo/src/map.rs", "/repo/src/inclusive_map.rs"]}
{"id": "C125", "title": "Two maps can be joined into a map to pairs by way of overlapping", "statement": "For every entry of a map a go through b.overlapping of its range, take the part that the two ranges share with the pair of the two values, and collect all this into a map. This does not panic; the result stores exactly those parts, in the order in which they are made (no two of them are ever coalesced); a key has the pair (v, w) in it exactly if it has v in a and w in b; and it has fewer ranges than the two maps together (at most a.len + b.len - 1).", "quantifier": "all maps a and b that histories of calls leave, over any totally preordered keys, == on values is equality; half-open and inclusive (lawful steps, no exhausted range inserted)", "why_tests_cant": "it combines overlapping, insert and collect over all pairs of maps; a bound on the number of ranges and the absence of coalescing hold for all of them or not at all", "anchors": ["/repo/src/map.rs", "/repo/src/inclusive_map.rs"]}
{"id": "C126", "title": "A window on a map is what overlapping yields, cut to the query", "statement": "Take any history of calls and a query range q, and make a second map by the same calls, each range cut to its part inside q (calls with no part inside q are left out, clear is kept). A key inside q has the same value in the second map as in the first, and a key outside q has none; the ranges the second map stores are exactly those that overlapping(q) yields on the first, each cut to q, in the same order; and it never stores more ranges than the first. The same for sets, with contains in the place of get.", "quantifier": "all histories of calls, all non-empty query ranges; keys totally preordered (get) or totally ordered (the stored ranges), == on values is equality; half-open and inclusive (lawful steps, no exhausted range inserted)", "why_tests_cant": "it relates two different histories of unbounded length for all query ranges; tests run a few", "anchors": ["/repo/src/map.rs", "/repo/src/inclusive_map.rs", "/repo/src/set.rs", "/repo/src/inclusive_set.rs"]}
{"id": "C127", "title": "Joining maps is commutative, idempotent and associative", "statement": "With the join of C125 (for every entry of the one map, what overlapping of the other yields, cut to it, with the pair of both values, collected): joining in the other order stores the same ranges with every pair turned round; a map joined with itself stores its own ranges, each with its value twice; and of three maps it does not matter which two are joined first, but for the nesting of the pairs. None of these calls panics. The ranges of the joined map, collected into a set, compare equal to & of the sets of the ranges of the two maps.", "quantifier": "all maps that histories of calls leave, keys totally ordered, == on values is equality; half-open and inclusive (lawful steps, no exhausted range inserted)", "why_tests_cant": "each law relates two or four different programs over all maps, of any size; the stored ranges, not only the answers of get, must come out the same", "anchors": ["/repo/src/map.rs", "/repo/src/inclusive_map.rs", "/repo/src/set.rs", "/repo/src/inclusive_set.rs"]}
