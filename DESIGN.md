# Formal model of jeffparsons/rangemap — design

## Shape of the work

* `lean/Verif/Model/*` — the model: one Lean definition per Rust function, each citing file:lines.
* `lean/Verif/Spec.lean` — the small independent specification (plain key→value functions, histories).
* `lean/Verif/Proof/*` — helper lemmas and invariant proofs.
* `lean/Verif/Props/*` — the property theorems (names in MANIFEST.json) with, beside each, a
  concrete example meeting its hypotheses.

### Modelling decisions

* `BTreeMap<Wrapper, V>` is the list of its entries in iteration order; `insert` keeps the *old key*
  when keys compare equal (std semantics), `remove` deletes the equal key, `range` filters and
  reports the documented panics (inverted bounds).
* `K: Ord` is a total *preorder* (`Std.IsLinearPreorder`): Rust's `Ord` does not promise that
  `Equal` keys are identical (`NotNan(-0.0)`).  `V: PartialEq` is a `BEq` that is symmetric and
  transitive, not necessarily reflexive (`PartialEquivBEq`).
* Panics are values of `Except Panic`; `while` loops take fuel and report `diverge` when it runs
  out; we prove fuel `len+2` always suffices and more fuel never changes the result.
* `RangeInclusive` carries std's hidden `exhausted` flag, because `contains`, `==` and `Hash` see it.
* Step functions are partial functions (`Except Panic K`) constrained only where a successor
  (predecessor) exists; at the extremes they may do anything.
* Iterators are state machines with `next`/`next_back`.

## Per-property plan

| id | modelled | proof |
|----|----------|-------|
| C01–C05, C07–C09 | `map.rs` insert/remove/get | loop invariant over entry membership: sorted-disjoint, coalesced, pointwise agreement outside the growing new range, everything left of it settled; fuel by length |
| C06 | `PartialEq` | induction over two canonical lists |
| C10–C12, C15 | `Gaps` state machine | induction over the cursor list |
| C13, C14 | `Overlapping` state machine | refinement to a deque of the filtered entries |
| C16 | `Iter`/`IntoIter` | refinement to a deque |
| C17, C18 | `Hash`, `PartialOrd`, `Ord` as lexicographic folds | induction over lists |
| C19, C20 | `Extend`, `FromIterator`, serde visitors | fold of insert + C03, C06 |
| C21, C22 | — | corollaries of C01/C02/C06; counting argument |
| C23–C32 | `inclusive_map.rs` | same invariants with successor reasoning |
| C33 | `impl_step_lite!` over `BitVec w`, debug and release | bit-vector/integer arithmetic |
| C34 | `impl_step_lite_not_nan!` over bit patterns | monotone embedding of bit patterns into `Int` |
| C35, C36 | `set.rs`, `inclusive_set.rs` | corollaries with `V = Unit` |
| C37–C39 | `operations.rs`, `BitOr`, `BitAnd` | induction over the two cursor lists |
| C40 | — | the theorems above are stated at that generality |
| C41 | `exhausted` flag | concrete witness; positive part = invariant `¬exhausted` |
| C42 | `Model/Crash.lean`: insert/remove as programs in a free monad over B-tree steps and stretches of user code, each of which may panic | the program simulates the main model when nothing panics; an invariant of the stored entries is kept by every step that changes the tree |
| C43 | `dense.rs` | coalescing run-length encoder produces the canonical list |
| C44 | both maps | canonical lists of corresponding pointwise maps |
| C45–C47 | as C12, C16, C21 for the inclusive map | as there, with successor reasoning; for exhausted ranges too where true |
| C48–C50 | set iterators, `Extend`/`FromIterator`/serde/comparison of both sets | transported from the maps with `V = Unit` |
| C51 | insert/remove | the stored list *as a set of entries* is given exactly, including which of two equal keys is kept |
| C52 | `Model/Tree.lean`: std's search on a tree of any shape, any rebalancing | search = filter when the entries are sorted by the order searched by; both the starts and the ends are, by C04/C26/C42 |
| C53 | `PartialOrd`/`Ord` | agrees with a lexicographic order stated by first difference; induction over two lists |
| C54 | `Model/Quickcheck.lean`: the `Arbitrary` impls (filter, then collect) | C19/C27 for the filtered sequence; surjective because collecting the entries gives the map back |
| C55 | — | an injection from stored ranges to the describing ranges: no range of a description meets two stored ones |
| C56 | gaps collected into a set | C10/C12 for the keys, canonicality for equality |
| C57 | `Extend`, `FromIterator` | pointwise contents do not depend on the order, canonicality for equality |
| C58 | `Model/Debug.lean`: `{:?}` through std's `DebugMap`/`DebugSet` (`{:#?}`: C93) | induction over the entries |
| C59 | `Model/Cost.lean`: the programs of C42 with the `BTreeMap` calls counted (not the comparisons inside them) | every deletion removes an original entry; at most one piece is left on either side; potential 2·len for histories |
| C60 | `Model/Fuzz.lean`: the bodies of the fuzz targets and of the `#[proptest]` functions not already covered by C14–C22, C43, with the random input as argument | corollary of C05/C26, C12/C45 (the sorted pieces are the tiling, since its starts are strictly increasing), C37, C38 |
| C61 | two runs of the same model over two key types; `Embeds`, `StepsMap`, `mapRange`, `Op.map` in `Spec.lean` | every model function commutes with renaming, by cases/induction (no invariant needed, except for the inclusive `gaps`, whose unguarded `add_one` is reached only below a stored start: invariant `Gaps.Guard`); widening as an instance |
| C62 | `hash` as in C17; `PrefixFree` in `Spec.lean` | prefix-freeness lifts from keys/values to tokens, entries, lists of known length |
| C63 | `Model/Peekable.lean`: std `Peekable` (with its `peeked` field) over any iterator, `Union::next` and `Intersection::next` with their calls of `peek`, `next`, `unwrap` | simulation by the list model of C37/C38; the iterator after any calls holds a contiguous part of the set, which is itself an obtainable set |
| C64 | the same model with `[BEq V]` and no laws (`Proof/Weak.lean`, `Proof/IWeak.lean`) | the loop invariant of C03/C25 restated with "`w == v` was tested" for "equal to `v`"; queries: every such map is also obtainable with the `==` that is never true, a partial equivalence.  `==` is deterministic and `!=` is its negation: with an independent `!=` (map.rs:340 asks `!=`, 448 asks `==`) see C67 |
| C65 | `Model/Clone.lean`: the mutating functions, lookups, `gaps`, `Union`, `Intersection` once more, with every call of `clone` in its place in a free monad (`Cl`); what a call returns depends on its number and its argument | a simulation (`Cl.Sim`) between this program and the plain one, relating maps entry by entry, by induction over the loops; `C65_identical` ties the second model to the first; inclusive: step functions that treat equal keys alike (`StepsRespect`, which `LawfulSteps` implies) |
| C66 | nothing new: the models of C23–C25 and C36 with an arbitrary `StepFns` | sufficiency is C25/C36; for necessity the two-call histories are computed symbolically for unknown step functions; hanging by induction on the fuel: the loop of `insert` maps the state to itself |
| C67 | `Model/Ne.lean`: `insert`, `extend` and histories once more with an independent `!=` where the crate has one | the loop proofs of C64 once more, with `a == b` false implying `a != b`; hanging by induction on the fuel; the iff from both; with the negation of `==` the two models are equal |
| C68 | `Model/CloneCount.lean`: the programs of C65 with the calls of `clone` counted, for clones that are what was cloned (those made inside `BTreeMap`, `StepFns` and by the caller's iterators are not seen) | in lockstep with the counted programs of C59: every iteration of a loop deletes one entry; histories by the potential 4·len resp. len; `C65_identical_operations` ties `Union` and `Intersection` of C65 to the main model |
| C69 | no new model: the inclusive map instantiated with the keys `Rev K` (`Props/Mirror.lean`), the step functions exchanged | both sides are determined by C51 (entries after a call) and C27 (reachable maps); those descriptions are symmetric; histories by induction; gaps are exactly the ranges `IsGap`. Keys are antisymmetric here (with a preorder the two directions may keep different representatives) |
| C70 | `Model/QueryWork.lean`: the iterators with a count of entries taken, comparisons and step calls (comparisons inside `BTreeMap::range` are not seen) | `C70_counted_is_real`: the counted functions return what the functions do; `C70_counts_exact`: the counts are the readings of a meter that each comparison, taking and stepping moves itself (`Model/Metered.lean`); `gaps` by a potential (entries remaining before the end of the query, and how often the end can still be met); `next_back` exactly, by splitting the entries at the end of the query |
| C71 | `Model/Borrow.lean`: the iterator with the sequence of ranges that `borrow()` returns and a count of the calls | induction on the calls: the entries left are always a contiguous part of those found, and `returned` items are removed from its ends; `C71_consistent` ties it to the ordinary model. (The sets' `Overlapping` passes the query through.) |
| C72 | `Model/IterCrash.lean`, `Props/IterCrash.lean` | `Overlapping::{next,next_back}` and `Gaps::next` of both map types statement by statement, each comparison, clone and step call asking an oracle (kind of user code, running number) whether it panics; the state kept is the one at that point (entry taken, `candidate_start` replaced or not, flag replaced or not). Subsequence by what one call does to the entries (gaps) still to be yielded; order and bounds by an invariant that survives skipping an entry. `C72_gaps_skips_entry` shows the false gap after a panicking comparison. `Props/NotInterrupted.lean`: a call none of whose pieces of user code panics is the ordinary one, and an interrupted call was interrupted by the piece that ran last (this ties the numbered model to the ordinary one). (Union and Intersection: C73.) |
| C73 | `Model/OpsCrash.lean`: `Union::next` and `Intersection::next` with an oracle that says at which call of user code a panic occurs | `C73_*_interrupted`: a call is interrupted exactly by the first of the calls of user code it makes that panics, and how many it makes; an interrupted `Intersection::next` leaves a state from which `next` does the same as from the original state, so the calls just repeat; an interrupted `Union::next` leaves suffixes of both sides, which keep the invariant of C37's proof (for both range types through `OpsLaws`). `Drop` of keys is taken not to panic. |
| C74 | `Model/OpsWork.lean`: the two iterators with a count of ranges taken and comparisons of keys (`merge`: 1-3, `order_start`/`order_end`: 1, `intersect`: 3) | the counted functions are proved to be those of `Model/Operations.lean`, and their counts the readings of a meter that the comparisons and takings move themselves (`C74_counts_exact`, `Model/Metered.lean`); the ranges still to be taken are the potential, so the bounds hold for any number of calls by induction. Comparisons are those written in operations.rs and in std's `contains`, `max`, `min`; the B-tree iterators' own work is not counted |
| C75 | `Model/ExtendCrash.lean`: `extend` over a source that may panic, and the sets' methods, on top of the programs of `Model/Crash.lean`; `CrashOp.log` records which calls of a history returned | composition of C42 with C01/C02/C23/C24 by induction over the items resp. the history; the values claims are stated for `LawfulBEq`; `from_iter`, `\|` and `&` build a new container that is lost in a panic, so nothing is to be seen |
| C76 | `Model/SerdeCalls.lean`, `Props/SerdeCalls.lean` | `serialize` and `visit_seq` of the four types against a caller-supplied state machine (`Serializer`: `serialize_seq`, `serialize_element`, `end`, each may fail; `SeqAccess`: `next_element`). Spec: `Accepts`/`Rejects` (which calls were accepted, which one failed), `Delivers` (what `next_element` returned), `Reads` (a format reads what it wrote, given the right length). Induction over the elements. The bytes of a format, and serde's own code, are not modelled; a failing `serialize_element` leaves no state behind because the crate drops the serialiser at once. |
| C77 | `Props/Restrict.lean` | Spec: `clip`, `iclip` (the part of a range inside another), `Overlay`, `Joined`. Half-open gaps by induction over the entries (`gapsList_clip`); inclusive gaps because what `gaps` yields is determined by what it covers (`Runs.unique`), so it is enough to compare coverage. |
| C78 | `Props/Recipes.lean` | Spec: `Underlay`, `RemoveAll` (loops, as relations between the map before and after). From C10, C13, C19, C51 and their inclusive counterparts, with induction over the pairs or the entries. |
| C79 | `Props/PropTests.lean`, `Props/IPropTests.lean` | `Model/PropTests.lean`: the test bodies as programs with the random input as argument (`drain` for `collect`, a panic for a failed assertion), and the strategies (proptest's own range strategy, which orders two random bounds, is assumed). From C14/C16/C46/C48 (an iterator that behaves as a double ended queue, drained from either end), C17–C19, C34, C39, C49, C50. |
| C80 | `Props/Provenance.lean`, `Props/ProvenanceOps.lean` | Induction over the history with the exact effect of `insert` and `remove` (C51); sets through `run_rm`. For `union`, `intersection` and `gaps` an invariant of the iterator state: what is still to be merged are ranges of the operands, a candidate start is the end of a stored range. |
| C81 | `Proof/OpsExact.lean`, `Props/OpsExact.lean` | For any range type that obeys `OpsLaws`: invariants of the merge loop (the range being built is bridged by ranges of the operands; whatever it swallowed lies inside it) and of the intersection loop (what is dropped meets nothing that is left). Uniqueness of the division by comparing two divisions at each other's ends. |
| C82 | `Props/Overlay.lean`, `Props/IOverlay.lean` | Pointwise from C19 (last covering pair wins; stored entries are disjoint) and C13/C32 (what overlapping yields); the laws up to == from C06/C25 (equal contents, equal maps). |
| C83 | `Props/SetPrograms.lean`, `Props/ISetPrograms.lean` | Spec: `subtract`, `within`, `meets` (the programs, in `Except`). Pointwise from C35/C36, C39, C48 by induction over the ranges of one set; equality of sets from equality of contents (C35/C36). |
| C84 | `Props/Unflag.lean` | Clearing flags commutes with every helper of `insert`/`remove`, by unfolding and induction on the loops (`Proof/IUnflag.lean`); stored flags are traced through the same helpers (`Proof/IFlags.lean`); `union` by induction on what is left of the operands, with coverage as the invariant. |
| C85 | `Model/Unstable.lean`: `insert`, `extend` and histories with numbered comparisons (`Spec.Answers`) | at a step answered `true` the code does what it does with the `==` "ever answered `true`", at a step answered `false` what it does with the `==` that is never true, so `Proof/Weak.lean` applies step by step; partial correctness by induction on the fuel; termination by `len` plus the number of comparisons left before the answers settle; hanging by induction on the fuel |
| C86 | `Model/KeyEq.lean`, `Props/KeyEq.lean` | The loop keeps hi ≤ end of the new range, so `==` is asked only of a stored start ≤ the new end; in the inclusive loop only of a key and its `add_one`-made equal. Two-call programs for the converses. |
| C87 | `Model/TreeCmp.lean`: the searches of C52 with the calls of `cmp` counted; the shape of std's B-trees as a predicate (an assumption about std, not about /repo) | size of a B-tree ≥ 2·6^(levels−1) − 1; one path per bound; number of `BTreeMap` calls from C59. `C87_layouts_exist` by choosing the arities; `C87_counts_exact…`: the searches and calls written a second time in a monad whose comparison moves the meter (`Model/TreeMeter.lean`) read exactly the counted numbers |
| C88 | `Model/Calls.lean`: `insert`, `remove` and what they call transcribed into a monad in which every comparison of keys, comparison of values and step moves a meter (the calls inside `BTreeMap` are C87's) | the metered methods end as the plain ones, with counts bounded by the number of searches C59 counts (`Proof/Calls.lean`: rules for a bound on the meter); then C59, and C87 for the totals |
| C89 | `Props/Twins.lean`: `Twins`, `SetTwins`, on top of C44 | exact lists of C13/C32; separated ranges are determined by the keys they cover (canonicity, C06) for gaps, intersection, `\|` and `&`; uniqueness of the finest division (C81) for union |
| C90 | `Model/Tree.lean` over the key type `Fl` (`Proof/Nan.lean`: numbers and `nan`) | two programs that take the same steps up to renaming (`Cr.Rel`) do the same on a renamed tree, without laws of the target order; the refused calls by computation; the emptied map by induction on the loop: it finds the root each time |
| C91 | `Model/Lawless`: the programs of `insert`, `remove`, `extend` and the queries as trees of every single call of user code and of std; `Props/Lawless` | A relational semantics in which every answer is possible; a small program logic (`Keeps`) for invariants that survive any answer and any panic; simulation of the metered model (C88) and of the queries under honest answers. `min`/`max` return one of their arguments (the crate calls them on references, for which std has the default ones), and `clone` returns its argument. |
| C92 | `Model/LawlessOps`, `Proof/LawlessOps`, `Props/LawlessOps`; `Takes`, `Stairs` say how the two inputs are used up | The programs ask every comparison (`Wild`), and `Wild.Always` is proved over all answers by induction on the fuel, with `Peekable` followed through `peek` and `next`; honest answers give back the model of C63. |
| C93 | `Model/DebugPretty.lean`: std's builders with `PadAdapter` (what is written, not a failing writer) | what the adapter writes for whole lines, and that it loses nothing, by induction over the text; the texts of entries are separated one after the other (`Delimited`). |
| C94 | `Model/LawlessEnds.lean`, `Props/LawlessEnds.lean`. The free-monad programs of C91/C92 with `next_back`, and `collect` around `Union`/`Intersection`. | Induction on the calls (a `Sublist` of what is left in the B-tree iterator), counting of gaps against entries, an invariant of the B-tree under `insert`; `*_honest` by running both programs side by side. |
| C95 | `Proof/Lengths.lean`, `Props/Lengths.lean`, `Props/ILengths.lean`. `total φ l` and `itotal φ ψ l` are defined on plain lists of ranges; no new model. | All end points sorted; the total of a list of ranges is the sum over neighbouring points of their distance times how many ranges cover the left one, hence depends only on coverage; coverage from C01, C02, C10, C13, C35, C37–C39. Inclusive ranges become half-open over the keys with one place beyond them all. |
| C96 | `Model/Programs.lean`, `Props/Programs.lean`. chrono times are keys of any type, `+ Duration::weeks(1)` any function with `k < next k`; chrono's and proptest's own code is not modelled. | Invariant of the loops (`Planned`: the lookups so far and the next week) from C01; the rows by canonicity (`canon`, C06) against a well-formed list built by recursion on the plan; benchmarks by induction from C01, C02, C07, C28. |
| C97 | `Props/Congruence.lean`, `Props/ICongruence.lean`. No new model. | `==` says that the entries are equal one by one; then the simulations of C65 (equal maps and arguments on both sides) with clones that are what was cloned. |
| C98 | `Model/Operations.lean`, `Model/Map.lean`, `Model/IMap.lean`, `Model/Iter.lean`, `Model/IIter.lean` (no simplification beyond these); `Spec.pairs` counts pairs, `leftover` the parts of a cut range | The ranges of two sets and the pairs that meet make up a graph without cycles: `components_count` (`Proof/OpsCount.lean`) shows ranges − pairs = components by counting the first range of each component, once for `union` (share a key) and once for `\|` (share a key or touch). `insert`/`remove`: C51 lists the entries, here they are counted. `gaps`: each gap is matched with the place where it starts |
| C99 | set.rs `insert`, `remove`, `extend`, `from_iter`, `BitAnd`, `BitOr`; inclusive_set.rs likewise (`Model/SetCost.lean`: the meters of `Model/Cost.lean`, `Model/Calls.lean`, `Model/TreeCmp.lean` and `Model/OpsWork.lean` put together) | behind all stored ranges the first half of `insert` finds at most one range to merge and the loop nothing (`Proof/EndCost.lean`); induction over the items; the numbers of ranges from C98, the comparisons from C74, C87, C88 |
| C100 | `Model/Collect.lean`, `Model/ICollect.lean`, `Model/Iter.lean`, `Model/IIter.lean` (nothing new is modelled; the programs are the list functions in the statements, `Spec.joined` among them) | a list that is sorted, disjoint and coalesced is collected into exactly itself; sublists and joined lists are again such (of two joined entries that touch, the entries of one of the maps touch as well); number of entries by C55; gaps by uniqueness of separated ranges |
| C101 | `Model/ICollect.lean`, `Model/IMap.lean`, `Model/ISet.lean` (nothing new is modelled) | `serialize` does not see flags (C84) and the history without flags is reachable without exhausted ranges, so the round trip is that of C20; collecting a sorted, disjoint and coalesced list gives the list; inserting anew by the exact effect of `insert` (C51), as no other entry with an equal value touches the range |
| C102 | `Model/ISet.lean`, `Model/Operations.lean` (nothing new is modelled; `Spec.Rev` is the opposite order, as in C69) | histories by C69; `gaps`, `intersection`, `&` and `\|` yield separated ranges, which are determined by their keys; `union` yields the finest division (C81), and the reflection of a finest division is one, since a cut just after a key is a cut just before its successor |
| C103 | `Model/OpsCrash.lean` (nothing new is modelled) | an interrupted call has taken ranges that all lie within the range it was putting together; those still in front yield parts of it, followed by what the uninterrupted iterator yields next (`interrupted`); induction on the number of calls |
| C104 | `Model/Map.lean`, `Model/IMap.lean`, `Model/Set.lean`, `Model/ISet.lean` (nothing new is modelled); `Spec.Op.writes`, `Overwritten`, `Independent` | C03/C25/C35/C36 give the value of a key as that of the last write, C06/C27 that this determines the container; the rest is about lists of writes (`lastWrite_append`). For the converse a history with one insertion tells a removal from nothing |
| C105 | `Model/Map.lean`, `Model/IMap.lean` (nothing new is modelled; the allocator itself is written in the theorems as `List.findSome?` over the items of `gaps`); `Spec.Blocks`, `place`, `BlockIn`, `Unused`, `Heap` | C12/C31: an unused block lies in one gap, because the key where a gap ends is taken. C51 for the entries: a block shares no key with the others and its value is no other's, so `insert` adds it as it is and `remove` takes just it away |
| C106 | `Model/Map.lean`, `Model/IMap.lean` (nothing new is modelled; the program is `Spec.Update`/`IUpdate`, its repetition `Accumulated`/`IAccumulated`) | C13/C32 and C10/C31 give the two lists; every item that covers a key carries the value claimed for it, so C19 (the last item covering the key wins) gives the new value. Induction on the updates; `==` from equal lookups |
| C107 | `Model/Iter.lean`, `Model/IIter.lean` (`Overlapping.next`, `nextBack`, `Gaps.next`) | `Overlapping.next_spec`, `nextBack_spec`: the first and last of the entries sharing a key with `q`; the entries are sorted, so an entry covering a nearer key would come before (behind) it. First item of C10/C31; coalescing (C05/C26) for the change of value |
| C108 | `Model/Set.lean`, `Model/ISet.lean` (`gaps`, `remove`, `extend`, `overlaps`, `insert`) | one toggle: C48 (gaps), `remove_has`, `extend_has`, a case split on `k ∈ q`; lists by induction, counting with `countP`; order by `Perm.countP_eq` and C35/C36; reservations: invariant "the set has exactly the keys of the granted", with which `overlaps` decides sharing a key |
| C109 | `Model/Provided.lean` (std's provided methods, as loops over a `next` that may panic, with fuel) | by induction over the list an iterator yields (`YieldsE.head`, `YieldsE.stop`); `rev` by exchanging the ends in the scripts of C14/C16/C46; then C09/C30 (`find`), C13/C32, C10/C31, C37, C38 |
| C110 | `Model/DebugWriter.lean` (std's builders and `PadAdapter` with a writer that may refuse, asserts as panics) | the builder's invariant (no key waits for a value unless something failed) by induction over the entries (`entry_item`, `map_fmt`); the padded pieces and their text by lines (`padLoop_spec`, `write_lines`); the rest by induction over the pieces |
| C111 | `Model/Dialogue.lean` (programs over numbered maps; one call; the dialogue) | simulation: `Mirrors` (each map is reachable and its `get` is the plain function) is kept by every call (`C111_call`, from C01, C02, C05, C06, C09-C16, C19), then induction over the calls; uniqueness of the runs by C06 and of the holes by induction over the lists |
| C112 | `Model/SetDialogue.lean` (programs over numbered sets; one call; the dialogue) | simulation as in C111: every call keeps the sets equal to the plain sets (`C112_call`, from C35-C39, C48, C81), then induction over the calls; uniqueness of the stretches by induction over the lists and of the union by C81 |
| C113 | `Model/Dialogue.lean` | the simulation of C111 with `get` equal to the plain function up to `==` (`LooseMirrors`), kept by every call (`C113_call`); the answers are functions of the entries; `==` of maps by canonicality for a partial equivalence (`eq_iff_strict`) |
| C114 | `Model/OpenIters.lean` (programs of C111 with numbered iterators; all Rust programs are among them, since borrowing only forbids some) | simulation on top of C111: the iterators over entries stay double ended queues of what is left to them (`Ends`, from C14, C16, C46), those over gaps yield what is left (`Yields`, from C10, C15, C31) |
| C115 | `Model/OpenSets.lean` (programs of C112 with numbered iterators, as in C114) | simulation on top of C112: `Ends` for the iterators with two ends (C48), `Yields`/`YieldsE` for gaps, union and intersection (C48, C81, C38) |
| C116 | C114, C115 (the two modelled programs side by side) | the plain functions are the same on both sides; the lists of runs, holes, stretches and divisions carry over along `start..=stop` to `start..stop+1`; C114_exactly and C115_exactly turn what could be heard into what is heard |
| C117 | C61 (renaming of each function), C112, C113 (the modelled programs) | each call on renamed containers and iterators answers the renamed answer and leaves the renamed containers and iterators; for `gaps` of the inclusive kinds an invariant keeps it from stepping past the greatest key of the smaller type; induction over the calls |
| C118 | C114, C115 (the modelled programs), C69, C102 (the opposite order) | the plain functions, runs and stretches turn around with the order; a list read from one end is the reversed list read from the other; C114_exactly and C115_exactly for the opposite order turn what could be heard into what is heard |
| C119 | C97 (single calls), the programs of C114 and C115 | each call takes alike arguments to alike answers and leaves the containers and kept iterators alike, from C97's simulations; inclusive `gaps` keeps the guard of C97; induction on the number of calls |
| C120 | C111, C112 (programs see plain maps and sets) | what a call does to plain maps at keys of P, and what plain maps may answer, depends on the keys asked about only; a call leaves alone what it does not change; induction on the turns |
| C121 | C120 (frame, one call), C06/C27/C35/C36 (canonical) | two calls of different programs commute: at every key one of the frames applies, and containers that hold the same are the same; then induction on the permutation of the turns (`Proof/Concert.lean`) |
| C122 | C03/C25, C35/C36, C100 | the last write of a key is v exactly if the key is a member after the sliced history (`Proof/Slices.lean`); stored ranges with one value do not touch, so they are the ranges of a set, and sets that hold the same are the same |
| C123 | C03/C25, C19, C06/C27 (canonical) | the last write of a key is that of the cut history if the key is on that side of the cut (`Proof/Cut.lean`); the cut ranges are well formed again, so they are a reachable map that holds the same; at most one range lies on both sides; sets are maps to the unit |
| C124 | C03/C25, C55, C100, C06/C27 (canonical) | the last write of a key in the history of the view is g of its last write (`Proof/Views.lean`); the entries shown are separate, so collecting them gives a reachable map that holds the same |
| C125 | C13/C32, C100 (`collect_wf`) | the join of `C100_join`, here as one program with its own drain of `overlapping`, and with the bound on the number of ranges; the shared parts come in order, and where two of them touch one of the maps has a boundary, so the values differ there: the list is well formed as it is; counting: of the entries that overlap e all but one end inside e and are never met again |
| C126 | C123 (`run_cut`, `iter_cut`), C13/C32 | cutting to q is a cut in the sense of C123; the stored ranges cut to q are still well formed, because a boundary strictly inside q is a boundary of the stored ranges |
| C127 | C125 (`shared_wf`, `maps_shared`), C06 by way of `AgreeAt.eq`; C100 (`C100_keys`), C39 | both sides are well formed lists that map the same keys to the same values (relabelling by an injective function keeps a list well formed), so they are the same list |

A property is *not* claimed of the crate where the model shows it false; then the failing claim is
stated and proved as such (C11 for the doc comment of `gaps`, C41 for exhausted ranges).

## Trusted base

* Lean 4.33.0's kernel.  No axioms are added; each theorem depends at most on `propext`,
  `Classical.choice` and `Quot.sound`.  `AXIOMS.txt` (written by `tools/axioms.py`) lists the axioms of
  every theorem in MANIFEST.json.  No `sorry`, `native_decide`, `bv_decide`; no Mathlib import.
* The reading of the Rust source into the model (cited per definition).
* The std contracts, none of which is part of /repo:
  * `Model/Std.lean`: `BTreeMap` as a sorted list, `Bound`, `cmp::{min,max}`; that `insert` keeps the
    old key when the keys compare equal; that `range` panics on inverted bounds;
  * `Model/Range.lean`, `Model/IRange.lean`: `Range`, `RangeInclusive` with its exhausted flag;
  * `Model/Crash.lean`: the methods of `BTreeMap` search first, then change the tree without calling
    user code, then drop what was taken out;
  * `Model/Tree.lean`: the search of `alloc/src/collections/btree/search.rs`;
  * `Model/Float.lean`: IEEE 754 bit patterns and `NotNan`'s order; `Model/Step.lean`: wrapping or
    panicking machine integers; `Model/Serde.lean`: what a serializer is handed and what a
    deserializer hands back;
  * `Model/Debug.lean`, `Model/DebugPretty.lean`, `Model/DebugWriter.lean`: the builders of
    `core::fmt::builders`, `PadAdapter`, and `Debug` of the two ranges;
  * `Model/Provided.lean`: the methods `Iterator` provides on top of `next`.
* User code (`Ord`, `PartialEq`, step functions) is, unless a property says otherwise, a function:
  asked the same, it answers the same.  `Ord` is a total preorder, `==` on values symmetric and
  transitive, a clone is what was cloned, and user code does not panic.  What remains without these
  assumptions is the subject of properties of their own: `==` on values without laws (C64), `!=` that is
  not its negation (C67), answers of `==` that change (C85), `==` on keys that disagrees with `Ord`
  (C86), keys equal to everything (C90), no laws for any comparison or step function (C91, C92), unlawful
  step functions (C66), clones that only compare equal (C65), a borrowed query that changes (C71), panics
  anywhere in user code (C42, C72, C73, C75).

## The model against the crate's own unit tests

`Tests/Crate.lean` evaluates the model on every deterministic unit test of `/repo/src` that does not
merely check that something compiles (and on the example of lib.rs), with the results asserted there:
inserts, removes, lookups, gaps, overlapping, comparison, debug output, serde and floating-point steps,
about 160 assertions.  This is a check of the transcription, not a proof of any property.  (The test of
all permutations of seven ranges against the dense map is subsumed by C43.)

## Simplifications of the model

* Not modelled: memory, allocation failure, lifetimes, `const fn` variants, macros beyond the
  `From<[_;N]>` they expand to, the integer width of `len` (usize), `no_std` and feature selection,
  `unsafe` (the crate has none).
* `while` loops have fuel `len + 2`; C08 and C29 prove that it never runs out and that more fuel
  changes nothing.
* Iterator adaptors of std used by the crate (`rev`, `take`, `filter`, `take_while`,
  `next_back` on a map range) are list functions or small state machines.  `Union` and `Intersection`
  read lists in C36 to C40; C63 models their `Peekable`s and `unwrap`s and proves it the same.
* A hasher is the list of what it is fed; a serializer the list of what it is given.
* Mutable borrows are values passed in and returned.

## Where documentation and code disagree

* `gaps` (map.rs:187-189, set.rs:147-149, and the inclusive ones) promises for an empty outer range "a
  single empty gap"; the code yields none (C11).
* `RangeInclusive` arguments whose iterator has been exhausted pass the `start <= end` assertion and are
  stored; `get` then misses their last key while `overlaps` and `gaps` count it as covered (C41).
* `union` yields the maximal ranges of each side merged where they overlap, but ranges that merely touch
  stay apart; `|` collects them into a set, which merges them (C37, C39).
* With values for which `v == v` is false (NaN) an insert never coalesces, not even with itself, so
  canonicality (C06, C27) needs reflexive values; C01–C05 do not (C40).

## Mutation testing

Each attempt edits one definition of the model the way a programming error would, rebuilds everything
in a scratch copy, and records which theorems no longer prove.  As a proof may break for a reason that
has nothing to do with the claim, most attempts come with a *refutation*: a proof, about the edited
model, that a theorem's statement is false there, by a concrete instance.  `seeded/LOG.jsonl` has one
line per attempt.  A claim that still proves although its English is false is tightened, and the line
says so.

`seeded/AUTO.jsonl` has the edits made by a program (comparisons weakened or turned round, constants and
projections exchanged, conditions negated) to every definition of the model, one line each, with the
first theorem that failed.  Edits that no theorem noticed were looked at one by one: where the claim in
English was broken, theorems were added (exact counts in C70, C73, C74, C87 and C88, what the random tests
mean in C79, what an undisturbed run does in C71 and C72) and the edits were tried again; what is left
as `survive` cannot be told from the original, for the reason in the line.
