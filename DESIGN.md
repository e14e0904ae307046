# Formal model of puzzles-api (`puzzle-utils` 0.3.0): design

The English statements are in `properties.jsonl` (generated by `tools/gen_props.py`), the status of every property and
the theorems that prove it in `MANIFEST.json` (generated by `tools/gen_manifest.py`). Lean sources: `lean/Verif/`.
`seeded/LOG.jsonl` records the wrong programs the theorems were run against (`tools/mutate.py`).
`seeded/SCREEN.jsonl` records a systematic screening by single-token edits of the model (`tools/screen.py`), with a judgement
on each edit that no proof noticed.

## 1. Shape of the model

* `Verif/Base.lean` — outcome type `Prog α` = `ok a | panic | ub | diverge`. A Rust panic (failed
  index, `expect`, `unreachable!`, arithmetic overflow with checks on) is the value `panic`; an access
  to freed / unallocated / uninitialised memory is the value `ub`; a loop that never ends is the value
  `diverge`. `Prog` is a monad and a chain-complete order with `diverge` at the bottom, so `while`/`loop`
  and recursion are translated with Lean's `partial_fixpoint`: **the model does not presuppose
  termination, termination is a theorem** (`= .ok _`). `Spec/Steps.lean` shows that `loop` is adequate: its outcome is that
  of a finite run of turns, and `diverge` exactly if a turn diverges or the run is infinite (`loop_iff`, `loop_diverge_iff`).
* Rust `Result<T,E>` stays data: `Except E T`. `&mut` parameters become returned values. `Vec` becomes
  `List`; indexing is a function that yields `panic` out of range; `vec![x; n]` panics when the allocation would
  exceed `isize::MAX` bytes.
* Raw-pointer code (dancing links) is modelled at pointer level: an explicit heap
  `address → unallocated | uninit | live node | freed`, `alloc`/`dealloc`, every `(*p).f` a checked
  read/write, every iterator a state machine that reads its link when the Rust code reads it.
* Randomness (`thread_rng`) is an arbitrary infinite stream `Nat → Nat`; a draw from `0..len` is the
  next stream element mod `len`. Theorems quantify over all streams, i.e. all outcomes. Laws
  (C30, C78, C79) are stated by counting sequences of draws below `N`, where `N` is a multiple of the numbers of candidates
  (`12 ∣ N`); that `thread_rng` draws fairly is not modelled.
* Fixed-width arithmetic (u32 pixel coordinates, the usize sum in the rule parser, `width * height` and the sums of coordinates in the maze code, i32 counters)
  takes a flag `oc : Bool` (overflow checks on = debug build, panic; off = release build, wrap). Theorems hold for
  both values unless stated. The target is 64-bit, except in C131 and C132, which hold for every width of `usize` (16 bits or more), C137 (any number of bytes), C128, C133 and C134 (16, 32 and 64 bits), and C135 and C136 (32 and 64 bits).
* Images are `width, height, pixel function`; `put_pixel` panics out of bounds.
* Text drawing (`imageproc::draw_text_mut` + font) is an opaque parameter, assumed only not to panic and to keep the
  image dimensions. Theorems quantify over it.

Specifications are in `Verif/Spec/*.lean`: definitions that mention no model function (valid sudoku
grid, exact cover, equivalence closure of a union history, maze passage graph as a Mathlib
`SimpleGraph`, runs of a nonogram line, texts of rules, pixels of a picture). Property theorems are in
`Verif/Props/*.lean`, one or more per property, named after the property; helper lemmas in `Verif/Proofs/`, models in
`Verif/Model/`. Beside each property theorem there is an `example` (or a theorem) that meets its hypotheses.

## 2. Trusted base

* Lean 4.33.0's kernel, and the statements (definitions in `Model/`, `Spec/` and the theorem statements in `Props/`).
* Axioms: every theorem of `MANIFEST.json` depends on a subset of `propext`, `Classical.choice`, `Quot.sound`
  (listed per theorem in `AXIOMS.txt`, generated by `tools/axioms.py`). No axioms of our own, no `sorry`, no `native_decide`, no
  `bv_decide`. `decide +kernel` is used for facts about whole finite tables (for instance that the closed form of the 324 sudoku constraints lists the questions of the specification)
  and for concrete witnesses.
* The correspondence of the model with the Rust code, which is by reading (every model definition cites file and
  lines), and the following assumptions about code that is not in /repo:
  * the Rust standard library behaves as documented (`Vec`, `VecDeque`, `split`, `usize::from_str`, `to_digit`,
    `swap_remove`, `sort_unstable`, `min_by` keeping the first minimum, `step_by`, slices, `collect` into `Result` stopping at
    the first error);
  * `image`: `from_pixel`, `put_pixel`, `get_pixel` and dimensions; `imageproc`: `Rect::at(..).of_size(..)`,
    `Rect::intersect`, `draw_filled_rect_mut` (modelled from their published source, which is not in the sandbox), `draw_text_mut`
    as an opaque function; the font parses (`FontRef::try_from_slice(..).expect(..)` succeeds);
  * memory is not exhausted (but see C99 for failing allocations of nodes); stack depth is unlimited (the only recursions are `find_helper`, of logarithmic depth by C23 and C89, and
    `solve_helper`, one level per covered constraint);
  * vectors that grow by `push` or `collect` (traces and references of a nonogram line, machines, parsed rules, `DisjointSet`, the
    stack of the maze generator) have no capacity limit in the model, except in C128. The size limits of the nonogram theorems
    (`LineFits`: sides below 2^57) and of the maze theorems keep the real ones below `isize::MAX` bytes; the parsers would reach the
    limit with a text of 2^58 bytes or more;
  * the allocator never hands out an address twice within one `DancingMatrix` (all allocation happens before the first
    deallocation), so a use after free is recognised as such. In the main model the addresses are 1, 2, 3, ... in an otherwise empty
    memory; C98 shows that nothing depends on this.

### Modelled, function by function

| file | functions | model |
|---|---|---|
| `src/structures/disjoint_set.rs` | all | `Model/DisjointSet.lean` |
| `src/structures/dancing_links/node.rs`, `mod.rs` | all, at pointer level | `Model/DancingLinks.lean` |
| `src/puzzles/sudoku/mod.rs` | `SUDOKU_CONSTRAINTS`, `parse_sudoku`, `solve_sudoku`, `print_sudoku` | `Model/Sudoku.lean` |
| `src/util.rs` | `choose_random`, pixel constants | `Model/Maze.lean`, `Model/Image.lean` |
| `src/puzzles/maze/recursive_backtrack.rs`, `mod.rs` | all (`create_maze`, `print_maze`, `print_maze_solution`) | `Model/Maze.lean` |
| `src/puzzles/nonogram/mod.rs`, `right_left.rs` | all (`parse_nonogram_rules`, `RuleMachine`, `find_left`, `right_left`, `solve_nonogram`, the empty `recursive_backtrack`) | `Model/Nonogram.lean` |
| `src/puzzles/nonogram/mod.rs` | `print_nonogram`, `print_nonogram_solution` | `Model/NonogramPrint.lean` |
| `src/puzzles/maze/mod.rs` | derived `Serialize`, `Deserialize` of `MazeNode`, `MazeDirection` | `Model/Serde.lean` |
| `src/lib.rs` | `image_to_png_bytes` | `Model/Png.lean` |
| `src/structures/dancing_links/*`, `solve_sudoku` | the same with an arbitrary allocator | `Model/Allocator.lean` |
| `src/structures/dancing_links/mod.rs` | `DancingMatrix::new` with the capacity of `rows` and unwinding | `Model/DancingLimit.lean` |
| `src/structures/dancing_links/*`, `solve_sudoku` | the same with the arithmetic of the counters as a parameter | `Model/DancingWrap.lean`, `Model/SudokuWrap.lean` |
| `create_maze`, `parse_nonogram_rules`, `solve_nonogram` | the same for `usize` of 2, 4 or 8 bytes | `Model/MazeTarget.lean`, `Model/NonogramTarget.lean` |
| `print_maze`, `print_nonogram`, `print_nonogram_solution` | the same for `usize` of 4 or 8 bytes | `Model/PrintTarget.lean` |
| all | `Display` texts of the error types (derived by `thiserror`) | `Model/Errors.lean` |

Not modelled: the PNG encoder of the `image` crate behind `image_to_png_bytes` (a parameter, `Model/Png.lean`), the shapes drawn by the font, the unit tests.

Simplifications: `usize` counters that are bounded by the length of an existing vector are `Nat` (each file says which);
`Vec` growth by `push` and `resize` never fails (the one place where it can, row numbers near 2^60 in `DancingMatrix::new`, is C128);
Rust's aliasing rules (what Miri checks beyond freed and uninitialised memory) are not modelled (`node.rs` goes through raw pointers everywhere and takes no reference to a node); consuming an iterator item by item is recursion on a list; in the nonogram
propagation `&mut` references to squares are positions.

Check of the models against the code: `tools/validate.py` takes the inputs and recorded results of all unit tests from the
text of the repository (6 sudoku and 4 nonogram puzzles, the tests of the matrix, the disjoint sets and `choose_random`, and
the 19 images under `tests/`) and runs the models on them with Lean's interpreter. All agree; the images agree in every
pixel outside the boxes of the text calls, and in each of those boxes something is drawn. The maze code has no recorded results.
This is testing, nothing in the proofs depends on it.

## 3. Per property

Statuses: `proved`; `partial` = the property as first written is false of the code: the manifest then lists its
negation (`_false`, with a concrete witness), the part that holds (`_partial`) and the theorem that says exactly what the
code does, which is a property of its own (C52-C62) with status `proved`.

| id | modelled | how proved |
|---|---|---|
| C01-C04 | `solve_sudoku` on top of the pointer-level dancing links model | exact-cover theorems (C13-C16) + the 324 sudoku constraints characterised by arithmetic |
| C05 | same; `ub` outcome | false as stated (witness); exact condition C52 |
| C06, C19 | heap with freed marks | `solve_helper` spec: frees exactly the active part; `drop` frees the rest |
| C07, C09, C10 | `parse_sudoku`, size checks | induction on the string |
| C08 | same as C01 | false as stated (witness); exact behaviour C53 |
| C11 | `partial_fixpoint`, outcome `ok` | induction on number of active columns |
| C12 | `print_sudoku`, text opaque | loop invariants over pixels |
| C13-C18 | `DancingMatrix` at pointer level, all histories of `add_solution` | representation relation (rings) + exact reversibility of unlink/relink; memory state = closed form of the set of covered columns |
| C20-C23 | `DisjointSet`, all histories | invariant with forest rank; abstraction to equivalence closure of the history |
| C24-C29 | `recursive_backtrack`, `visit_next`, `create_maze` | DSU = reachability, adding an edge between unreachable vertices keeps acyclicity; BFS invariant. C26 false for width 1 (exact: C54) |
| C30 | `choose_random` | `swap_remove` permutation lemma; every candidate for equally many draws (`C30_uniform`) |
| C31-C33, C35 | `print_maze`, `print_maze_solution` | pixel loop invariants |
| C34, C36 | same | false as stated; exact acceptance C55, universal rejection C56 |
| C37 | `parse_nonogram_rules` incl. `usize::from_str` | induction over fields |
| C38, C39 | same | false as stated on overflow; exact behaviour in both build modes C57 |
| C40-C42 | `RuleMachine`, `find_left`, line step | the dynamic program keeps, for each automaton state, the leftmost trace; traces ↔ lines that satisfy the rule. A zero inside a rule means an empty block with gaps on both sides (`Follows`) |
| C43, C44, C47, C49 | propagation loop | each step is a monotone deduction; measure = number of blank squares |
| C45, C46 | `solve_nonogram` | false as stated (backtracking has an empty body); exact: C59, C60 |
| C48 | parser + solver | false as stated (rules that start or end with a zero); partial for all other rules; what happens to the rest: C67 |
| C50, C51, C61 | `print_nonogram`, `print_nonogram_solution` | pixel loop invariants |
| C58 | line step | settled squares = equal block index in left- and rightmost arrangement |
| C60, C62 | propagation | chaotic iteration: least fixpoint of monotone deductions; symmetry under transposition |
| C63, C64 | `find`, `union`, all histories | the state after `find` in closed form; class sizes counted at the roots |
| C65 | `solve` | the active part of the matrix, read off as lists, is exactly the residual matrix of the recursion; induction on number of columns |
| C66 | `solve_sudoku` | C65 carried over from row numbers to clues; the 324 constraints are the 324 questions (kernel computation over the whole table) |
| C67 | line step, `solve_nonogram` | the second end state is met at once; the first such line ends the first pass, by a panic unless it or an earlier line is stuck |
| C68 | parser + line | length of a line = numbers + gaps |
| C69 | `solve_nonogram` with no rows | case distinction, line of length 0 |
| C70 | `recursive_backtrack`, `create_maze` | the stack is the route from cell 0 to the current cell; a cell is left for good when all its neighbours are reached |
| C71 | `recursive_backtrack`, `create_maze` | from left to right C70; from right to left draws are built from the target tree, step by step, and the result is included in it |
| C72 | `visit_next`, `recursive_backtrack` | every draw removes an entry of the 4wh lists |
| C73 | breadth-first search of `create_maze` | the queue is sorted by route; routes without repetition are unique in a tree |
| C74 | `solve_nonogram` | a mirrored stable grid is stable; C60 |
| C75 | `Display` of the error types (`Model/Errors.lean`) | case distinction, cancellation of the fixed parts |
| C76 | loops of `recursive_backtrack` and `create_maze` | every turn of the first pushes a new cell or pops one for good; the search never queues a cell twice |
| C77 | `right_left` of mod.rs | every pass but the last settles a square |
| C78 | `recursive_backtrack`, `visit_next`, `choose_random` | the stack loop plays a recursive search whose cells have fixed orders of directions (`Plays`, `Explores`); for each family of orders the draws are counted step by step |
| C79 | `recursive_backtrack` | the recursive search commutes with exchanging rows and columns; then C78 |
| C80 | `solve`, `solve_helper`, against the copy with a bounded number of frames in `Spec/Depth.lean` | every frame but the last removes the columns of a row; a frame adds at most one row to the solution |
| C81 | `create_maze`, `recursive_backtrack` with every sum and product a machine operation | C29 and, for a wrapped product, invariants that hold for any geometry: both searches end, and the breadth-first search cannot meet a whole last row |
| C82 | `new`, `solve`, `add_solution` | false for repeated rows (evaluated with bounded loops, `Proofs/DL/Fuel.lean`, shown to agree with the model); for every list of constraints: `new` leaves all links inside the allocated cells, `drop` after it frees every node (the invariant of `new` without the two clauses that need distinct rows), absent rows are refused, an empty constraint ends the search; `C82_endless`: a matrix on which `solve_helper` reaches a call with the memory of the call before it, hence never returns (fixpoint induction, `Proofs/DL/Endless.lean`) |
| C83 | `solve_sudoku` | from C01, C02 and C04: a symmetry (any bijection of cells that maps units onto units, with any bijection of digits) maps completions to completions and has an inverse (`Spec/SudokuSymmetry.lean`) |
| C84 | `create_maze` | walks change column and row by the differences of the counts (`Proofs/Maze/Walks.lean`); a walk without repeated cells has fewer steps than cells and never turns back |
| C85 | `solve`, `solve_helper` | the code with a counter (`Spec/Calls.lean`) is shown to compute what the code computes and the number of visited nodes; same induction as C65 |
| C86 | `solve_sudoku` | singles are confluent: entering more of the completion keeps them (`Proofs/Sudoku/Singles.lean`); so the solver's question always has one answer and the search tree is a path |
| C87 | `solve_nonogram`, rule parsing | the runs of a line without empty rules fit (`Proofs/Nonogram/Overlap.lean`); the picture is a solution, so every mark agrees with it (C42); empty line gives the rule `0`, which panics |
| C88 | `solve_nonogram` | the solver is a fixpoint of line solving, which fills exactly the squares filled in all arrangements; overlaps and single arrangements are such squares |
| C89 | `find_helper` | the function with a bound on its frames (`boundedFind` in `Spec/DisjointSet.lean`), induction along the chain of parents; the bound is C23 |
| C90 | `print_maze`, `print_maze_solution`, `create_maze` | the middle line of a cell row or column meets wall pixels only at multiples of ten (`Proofs/Maze/Picture.lean`); induction over the route; with C31 and C35 |
| C91 | `find_helper`, `find`, `common_set`, `union`, `add`, all histories | the code with a counter of calls (`Spec/DisjointSetCost.lean`) computes what the code computes; potential of Kozen and Tarjan (level and iteration of a node) over an exact rank, `Proofs/DisjointSetCost.lean` |
| C92 | `solve_sudoku` | from C01, C02, C04 and C83; a symmetry that fixes the clues moves the answer to another completion |
| C93 | `print_nonogram_solution` | from C51, interiors of different squares are disjoint |
| C94 | `print_sudoku` with a font that satisfies `Glyphs` (`Spec/Glyphs.lean`, a hypothesis of these theorems only) | induction over the text loop, the boxes of different cells are disjoint |
| C95 | all of `solve_nonogram` once more in a monad with a counter (`Spec/Counted.lean`, `Spec/NonogramCost.lean`) | the copy computes what the model computes (`Counted.Costs`), each loop with a variant and a bound for one turn; the number of blank squares bounds the number of passes |
| C96 | all of `create_maze` once more with the counter (`Spec/MazeCost.lean`); arithmetic, `swap_remove` and the four looks of a search turn are not steps of their own | potential of the disjoint set (C91) carried through both loops, the length of the path pays for the unions, numbers of turns and draws from C76 |
| C97 | the counter of `solve_helper` calls (C85); the family `hard` (`Spec/Hard.lean`) | the number of calls is the size of the search tree (C85); every row tried removes at least q constraints and no constraint grows; for `hard` by induction, both rows of the first constraint lead to the same smaller problem |
| C98 | `new`, `new_header`, `DancingMatrix::new`, `solve_sudoku` once more over an allocator `al` (`Model/Allocator.lean`; the k-th call returns `al k`); everything else is the model itself, run on that memory | simulation: `al` as a partial injection between the two memories, each function maps related states to related states, for endless runs by induction on either side (`Proofs/DL/Alloc.lean`) |
| C99 | the same, `al k = 0` is a failed allocation | up to the first failure by the simulation of C98; then the write of the node itself goes to null, whatever was linked before |
| C100 | the code `serde_derive` generates for `MazeNode` and `MazeDirection`, over serde's data model (`Model/Serde.lean`; modelled from its published behaviour, formats are not modelled) | induction over the entries of a map with the fields read so far |
| C101 | `union`, `find_helper` | explicit unions of equal sets (`tournament`), by induction on log2 of the size |
| C102 | all of `dancing_links/mod.rs` and `node.rs` and `solve_sudoku` once more with a counter (`Spec/Work.lean`); `sort_unstable` and the scan of `min_by_key` beyond its `next` calls are not steps of their own | the copy computes what the model computes; covering a column costs a constant per node removed, so the number of nodes left is a potential for `add_solution`; in the search each level undoes what it did, so a call of `solve_helper` costs a constant per node left |
| C103 | `create_maze`, `recursive_backtrack` | lower bound: column plus row number changes by one per step and the exit is farthest; attained: two explicit paths through all cells, drawn by the exact set of reachable mazes (C71) |
| C104 | `create_maze`, `recursive_backtrack` | of two neighbouring cells one is on the route to the other (C70), and the exit is farthest (C28); a corner of the grid has only two neighbours, so a route through it to the exit ends there; explicit paths for the corners |
| C105 | `print_maze` | the release version is one list of pixel writes with coordinates modulo 2^32 (`Proofs/Maze/PrintAll.lean`), which succeeds exactly if all lie inside; with overflow checks the two dimensions are the first to overflow |
| C106 | `print_maze_solution` | the walk of C55 without bounds on the image (`Proofs/Maze/PrintFar.lean`): `10x + 16` can only overflow at 429496728, and there the pixels written after a wrapped test lie outside; straight routes show that the bound of C33 is sharp |
| C107 | `print_nonogram` | positions of the texts of C50 (`colTexts`, `rowText`) compared with the grid lines; a rule without zeros of minimal length at most h has at most (h+1)/2 numbers |
| C108 | `print_nonogram_solution` | as C51, with square `i` replaced by `i mod 2^32`; the middle pixel of a square tells whether it is marked; the tests one after the other for the errors |
| C109 | `create_maze`, `recursive_backtrack` | while the next cell of the path is unreached its direction is among those left, so some draw makes the stack follow the path; passages once opened stay; distances along a path in a tree are the numbers of steps |
| C110 | `create_maze`, `recursive_backtrack` | C104 for the impossible columns; C109 with two explicit families of paths that visit the whole last row for the others |
| C111 | `print_nonogram`; drawing a text is assumed to return at every position | `Proofs/Nonogram/PrintAll.lean`: without checks the run is one list of pixel writes with positions modulo 2^32, which succeeds exactly if all lie inside; with checks each of the four conditions is the first to fail in turn, a loop one of whose turns always panics panics |
| C112 | `solve_nonogram`, `right_left`, the machines | columns have no common squares, so each finds the empty grid and each row only what the columns found (`Proofs/Nonogram/Crash.lean`); on an empty line the step finds every square with the same value in all fillings, by moving the first block (`Proofs/Nonogram/Forced.lean`) |
| C113 | every model with a build mode | "panics or the same" is a congruence for sequencing, `for` and `loop` (`Proofs/Builds.lean`; for `loop` by its adequacy, `Spec/Steps.lean`), so it goes through each function by its structure; equality from the exact panic conditions C81, C12, C112 |
| C114 | the states between the turns of `recursive_backtrack` and of the search | invariants along `Runs`; for the bound the draws that follow a serpentine through the grid |
| C115 | `solve_nonogram`; closed grids in `Spec/NonogramClosed.lean` | closed grids are stable, so they extend the least stable grid (C60); the two puzzles: the closed grids found square by square, and a stable grid with unknown squares |
| C116 | `solve_nonogram` on a puzzle and on the same puzzle with a blank line | stable grids of the two correspond (a blocked square at the end of a line changes neither its completions nor what is settled); other sides by C62 and C74 |
| C117 | `solve_nonogram` | in a line of one square nothing stays unknown; the puzzles of all other dimensions are 2x2, 3x2 and 2x3 puzzles with blank lines added as in C116 |
| C118 | `solve_nonogram` | a computable propagation proved to stay below every stable grid, run by the kernel on the rules of all 512 pictures of 3x3 (the stuck ones have a second solution); smaller dimensions by adding blank lines; the other dimensions from one 2x4 puzzle |
| C119 | `create_maze`, `recursive_backtrack` | of two neighbouring cells one is on the route to the other (C70), so it has two doors unless it is the first cell; the half by numbering the cells along a snake; all perfect mazes: in one row or column every tree is depth-first, otherwise a comb that leaves cell 0 on both sides is not |
| C120 | the parsers, solvers and printers one after the other | C09, C01, C02, C94 and C37, C87, C50, C51 composed |
| C121 | `recursive_backtrack`, `visit_next`, `choose_random` | induction over the recursive search of C78: it makes a given depth-first tree exactly if in every cell the direction of each passage comes before the directions of the other neighbours beyond it; these orders are counted cell by cell (a table of all 625 ways to mark four directions, checked by the kernel); the neighbouring pairs and the passages of the tree are counted |
| C122 | `recursive_backtrack` | sums over all mazes of C121; with both sides at least 3, a maze that starts right and then down has a passage with three neighbours beyond it, the row-by-row maze has none |
| C123 | `create_maze`, `recursive_backtrack` | the bottom walls of the last row all stand in the maze that is searched, so the one that is open afterwards is the exit and closing it gives the maze back; then C121, C122 |
| C124 | `recursive_backtrack`, `choose_random` | passages beyond which three neighbours lie start in different cells that are not at the border; two such cells side by side are entered from one another, so a block of four would be a cycle; with three columns the way down the middle has one in every row; then C121 |
| C125 | `print_nonogram_solution` | `Rect::right` and `bottom` of the image become negative from 2^31 on, so the intersection is empty; with wrapping numbers each square is a rectangle of pixels computed per direction, then as C108 |
| C126 | `image_to_png_bytes`; the encoder of the `image` crate is a parameter that writes a sequence of byte strings to the cursor and does not seek (`Model/Png.lean`) | the cursor always stands at the end of the vector; then C32, C94, C93 |
| C127 | `solve_nonogram`, `right_left`; the puzzles in `Spec/NonogramChain.lean` | the known squares end at a front; for the squares two columns beyond it two completions of the row differ, so a pass moves the front by two columns at most; the stable grid is full because a filled square decides the next square of its row and the column rule decides the other one |
| C128 | `DancingMatrix::new` once more with the capacity of `rows` and with the memory as part of a panic, for pointers of 2, 4 or 8 bytes (`Model/DancingLimit.lean`) | simulation: each step unwinds or does what the main model does; every address handed out stays a live node; the capacity is that of `Spec/Capacity.lean`, so the condition is exact (`Proofs/DL/Limit.lean`) |
| C129 | the counters `left_block` and `right_block` of `RuleMachine::right_left` | the loop invariant of C40 with the counters modulo 2^32; the first square at which the leftmost completion has 2^31 boundaries (`Proofs/Nonogram/Counter.lean`) |
| C130 | `cover_column`, `uncover_column`, `add_solution`, `solve` with the arithmetic of the counters as a parameter (`Model/DancingWrap.lean`) | every cell stays in the column and row it was created in, whatever the links; freeing the columns of an accepted row frees a header, and a header is freed only once, so no column occurs twice among the accepted rows (`Proofs/DL/RepSound.lean`); the examples by bounded loops shown to agree with the model (`Proofs/DL/FuelWrap.lean`) |
| C131 | the same | covering only lowers counters and uncovering restores them, so no counter exceeds its first value; the search of C13 repeated with both arithmetics (`Proofs/DL/WrapEq.lean`) |
| C132 | `solve_sudoku` with the arithmetic of both builds (`Model/SudokuWrap.lean`) | C131 for every state the loop over the givens reaches; the row numbers and digits stay small (`Proofs/Sudoku/Wrap.lean`) |
| C133 | `create_maze` with `usize` of 2, 4 or 8 bytes (`Model/MazeTarget.lean`) | whenever the 64-bit program returns, every operation of the other one has the same result: coordinates stay below `width * height` (`Proofs/Maze/Target.lean`); wrapped products as in C81 (`Proofs/Maze/OverflowTarget.lean`); for 8 bytes the two models are the same term |
| C134 | the nonogram functions with `usize` of 2, 4 or 8 bytes (`Model/NonogramTarget.lean`) | within the limits every function of the other target is equal to the 64-bit one, line by line (`Proofs/Nonogram/Target.lean`), because the answers of `find_left` are as long as the line; parsing by induction over the fields |
| C135 | the printing functions with `usize` of 4 or 8 bytes (`Model/PrintTarget.lean`) | equation with the 64-bit functions: only the product of the dimensions and the limit of the buffer differ (`Proofs/PrintTarget.lean`); the witnesses by evaluation |
| C136 | the functions of C133, C134 and C135 one after the other | composition of those theorems with C24 and C120; the rules of a picture are no longer than its lines (`Props/Targets.lean`) |
| C137 | `parse_nonogram_rules` with `usize` of any number of bytes (`Model/NonogramTarget.lean`) | against `Spec/NonogramText.lean` by induction over characters, fields and rules (`Proofs/Nonogram/ParseTarget.lean`) |

## 4. Findings: where the code violates a property

1. **Use after free in `DancingMatrix::add_solution`** (C16, C05, C52). `self.rows` is nulled only for the rows of one column
   of the added row (the column of its last entry); rows removed through its other columns keep dangling pointers.
   `solve_sudoku` reaches this on puzzles with conflicting givens, exactly those described in C52 (`C05_false`,
   `C05_use_after_free_digits`).
2. `add_solution` pushes the row on the partial solution even if it then fails (C16).
3. `solve_sudoku` accepts entries above 9 and reads them as clues of later cells (C08, C53).
4. `create_maze` with width 1 and height at least 2 returns directions that are all `Right` (C26, C54); width or height 0
   panics (C29).
5. `print_maze_solution` rejects every solution made by `create_maze` (C34, C56): the final check asks for an image of
   `10y + 16` pixel rows although the pixels painted after it need only `10y + 11`, which is what the last row of cells has. It also rejects `Left` out of column 1 and `Up` out of row 1 (C36, C55).
6. `recursive_backtrack` of the nonogram solver is empty: puzzles that line logic does not finish are answered with a
   wrong grid (C45, C59), unsolvable ones with `Ok` (C46).
7. The rule `0`, the usual notation for an empty line, is accepted by the parser and makes the solver panic (C48). The same
   happens with any rule that starts or ends with a zero (C67). An empty line cannot be written in any other way, so puzzles with empty lines cannot be entered.
8. `parse_nonogram_rules` adds without overflow check: panic in debug builds, wrap-around and acceptance in release builds
   (C38, C39, C57). `NonogramError::EmptyPuzzle` is never returned.
9. `solve_nonogram` with no rows and two or more columns panics on the slice `grid[1..]` (C69; excluded by `Sized.rows` elsewhere).
10. The line step is weaker than line logic (C58: rule `1 1` on `? ? # ? ?`).
11. `print_nonogram_solution` paints over the thick grid lines next to filled squares (C61); `print_nonogram` leaves 10 pixels of
    margin per row for column rules that need up to 15, so long column rules are drawn into the grid.
12. 32-bit coordinates: `i as u32` in `print_maze` and `print_nonogram_solution` truncates for more than 2^32 cells, and
    `width * 10 + 1` overflows; the theorems state the ranges (`PrintDims`, `Printable`), and C105 and C111 what `print_maze` and
    `print_nonogram` do outside of them (a release build returns an empty picture for a nonogram of 2^30 by 2^30 squares). From an image side of 2^31 on, `print_nonogram_solution` draws no
    square at all, because `Rect::right` of the image is negative (C125).
13. `DancingMatrix` needs constraints without repetitions (C82): `{0}, {0, 0}` makes `solve` use freed memory. Its only
    caller, `solve_sudoku`, passes constraints without repetitions, so this is a restriction of the interface that is not written down.
14. `Node::new` and `Node::new_header` do not check the result of `alloc`: if an allocation fails, the node is written through the
    null pointer (C99), where `handle_alloc_error` would be expected.
15. `print_nonogram` draws grid lines across the numbers above a column for puzzles of 9 rows or more (C107): it reserves
    `max(150, 10h)` pixel rows for up to `(h+1)/2` numbers of 30 pixel rows each.
16. A panic inside `DancingMatrix::new` leaks every node allocated so far (C128): the matrix, whose `Drop` frees them, does not exist yet.
17. The block counters of the nonogram line step are `i32` (C129): a rule with more than 2^30 blocks panics in a debug build; a release build blocks a square wrongly from 2^31 blocks on.
18. With constraints that repeat rows `solve` can return `Ok` with rows that leave a constraint unsatisfied (C130): for
    `{3,1}, {2,4}, {8,7,5,6,5}, {3,6,5,5}, {2,4,3,6}` both builds answer `[1, 7, 2]`. On `{0,0,0}` a debug build panics and
    a release build reports `NoSolution` although row 0 is an exact cover.
    On `{0,2}, {4,4,3}, {3,0}` both builds report `NoSolution` although rows 2 and 3 meet every constraint once.
19. With constraints that repeat rows `solve` can also recurse for ever, in both builds (C82_endless): on
    `{4,2}, {4,3}, {0,3,2,0}, {4,1}`, of which rows 4 and 0 are an exact cover. The model has no stack limit; a real process
    would end with a stack overflow.
20. On a 32-bit target a release build accepts the rule `4294967295,2` for lines of 5 squares, which a 64-bit build rejects, and the
    solver then panics (C134); with overflow checks the parser panics.
21. On a 32-bit target a release build of `print_maze(2^31, 2, [])` returns a picture of 1 by 21 pixels, and `print_nonogram_solution`
    accepts an empty grid for 2^31 by 2 squares (C135): `width as usize * height as usize` wraps to 0. A 64-bit target reports
    `InvalidDimensions`.
