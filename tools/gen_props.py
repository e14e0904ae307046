#!/usr/bin/env python3
"""Generates /verif/properties.jsonl (one JSON object per line)."""
import json, os
P = []
def p(title, statement, quantifier, why, anchors):
    P.append(dict(id="C%02d" % (len(P)+1), title=title, statement=statement, quantifier=quantifier,
                  why_tests_cant=why, anchors=anchors))
SUD="src/puzzles/sudoku/mod.rs"; DL="src/structures/dancing_links/mod.rs"; ND="src/structures/dancing_links/node.rs"
DS="src/structures/disjoint_set.rs"; MZ="src/puzzles/maze/mod.rs"; RB="src/puzzles/maze/recursive_backtrack.rs"
NG="src/puzzles/nonogram/mod.rs"; RL="src/puzzles/nonogram/right_left.rs"; UT="src/util.rs"

# ---- sudoku
p("solve_sudoku only returns correct completions",
  "For every 81-entry puzzle with entries 0..9, whenever solve_sudoku returns Ok(grid), grid has 81 entries in 1..9, every row, column and 3x3 box holds each of 1..9 exactly once, and grid agrees with the puzzle on every non-zero entry.",
  "all 10^81 puzzles with entries 0..9, every search path of the solver",
  "There are 10^81 puzzles and the solver backtracks arbitrarily deep; tests check five.",
  [SUD+":solve_sudoku", SUD+":SUDOKU_CONSTRAINTS", DL+":DancingMatrix::solve"])
p("solve_sudoku finds a completion whenever one exists",
  "For every 81-entry puzzle with entries 0..9 that has at least one valid completion, solve_sudoku returns Ok.",
  "all completable puzzles",
  "A pruned branch that should not have been pruned shows up only on particular puzzles; completeness is a statement about the whole search tree.",
  [SUD+":solve_sudoku", DL+":DancingMatrix::solve_helper"])
p("solve_sudoku's NoSolution is truthful",
  "For every 81-entry puzzle with entries 0..9, if solve_sudoku returns Err(NoSolution) then no valid completion of the puzzle exists.",
  "all puzzles with entries 0..9",
  "Non-existence of a completion cannot be observed by running the solver.",
  [SUD+":solve_sudoku", DL+":DancingMatrix::add_solution"])
p("Uniquely solvable puzzles return their solution; solved grids are fixed points",
  "If a puzzle with entries 0..9 has exactly one completion, solve_sudoku returns exactly it; in particular a complete valid grid is returned unchanged.",
  "all uniquely completable puzzles, all valid grids",
  "There are 6.7e21 valid grids.",
  [SUD+":solve_sudoku"])
p("solve_sudoku never touches freed memory",
  "For every slice of bytes, solve_sudoku performs no read, write or dealloc of a node that has already been freed. (False of the code: exact characterisation of the inputs that trigger the use-after-free.)",
  "all puzzles; all orders in which givens conflict",
  "Use-after-free is undefined behaviour: a test may pass although memory was touched after free; it needs particular conflicting givens.",
  [DL+":DancingMatrix::add_solution", ND+":Node::free_chain", SUD+":solve_sudoku"])
p("solve_sudoku frees every node exactly once",
  "On every input that does not trigger the use-after-free, when solve_sudoku returns (Ok or Err) every matrix node it allocated has been deallocated exactly once.",
  "all inputs and all exits (success, no solution, rejected given)",
  "Leaks and double frees depend on the search path; Miri runs only the handful of test puzzles.",
  [DL+":DancingMatrix::solve_helper", DL+":Drop", ND+":Node::free_chain"])
p("Puzzles of the wrong size are rejected",
  "solve_sudoku and print_sudoku return Err(InvalidSize(n)) exactly when the slice has n != 81 entries, and n is the slice length.",
  "all slices of every length", "Every length must be covered.",
  [SUD+":solve_sudoku", SUD+":print_sudoku"])
p("Entries above 9 are rejected or respected by solve_sudoku",
  "If a puzzle contains an entry above 9, solve_sudoku never returns Ok with a grid (there is no grid agreeing with the givens). (False of the code: an entry above 9 is silently read as a clue for another cell or dropped.)",
  "all byte slices of length 81 containing an entry >= 10", "Tests only use entries 0..9.",
  [SUD+":solve_sudoku", DL+":DancingMatrix::add_solution"])
p("parse_sudoku accepts exactly the 81-digit strings",
  "parse_sudoku(s) returns Ok(v) exactly when s consists of 81 ASCII digits, and then v lists the digit values in order (so v has length 81 and entries 0..9).",
  "all strings", "Infinite input space.", [SUD+":parse_sudoku"])
p("parse_sudoku reports the first offending character, before any size complaint",
  "If s has a character that is not an ASCII digit, the result is Err(InvalidInteger(c)) with c the first such character, whatever the length of s; otherwise, if the length is not 81 the result is Err(InvalidSize(length)).",
  "all strings", "Error precedence must hold for every string.", [SUD+":parse_sudoku"])
p("solve_sudoku terminates",
  "solve_sudoku returns on every input (it neither loops forever nor panics), for every byte slice that does not trigger the use-after-free.",
  "all byte slices", "Termination of an unbounded backtracking search over pointer rings cannot be tested.",
  [DL+":DancingMatrix::solve_helper", ND+":node_iterator"])
p("print_sudoku draws exactly the grid",
  "For every 81-entry puzzle print_sudoku does not panic and yields a 900x900 image; apart from text drawing the black pixels are exactly the lines at multiples of 100 and the thickening lines next to 300 and 600; each non-zero entry i is drawn as text once at (100*(i mod 9)+25, 100*(i/9)+5).",
  "all puzzles, all pixels", "810000 pixels for all puzzles; index arithmetic must never leave the image.",
  [SUD+":print_sudoku"])
# ---- dancing links
p("Exact cover: solve is sound",
  "For every list of constraints (each a list of distinct row indices), if DancingMatrix::solve returns Ok(rows) then the returned rows are distinct and every constraint contains exactly one of them.",
  "all constraint matrices of any size", "Matrices are unbounded; each backtrack must restore the structure perfectly.",
  [DL+":DancingMatrix::new", DL+":DancingMatrix::solve"])
p("Exact cover: solve is complete",
  "For every list of constraints, if some set of rows covers every constraint exactly once then DancingMatrix::solve returns Ok; Err(NoSolution) is returned only if there is none.",
  "all constraint matrices", "Statement over the entire search tree.",
  [DL+":DancingMatrix::solve_helper"])
p("Preselected rows are honoured",
  "After a sequence of successful add_solution calls, solve returns Ok exactly when the preselected rows extend to an exact cover, and the returned list starts with the preselected rows in order.",
  "all matrices, all sequences of add_solution calls that return Ok", "Unbounded histories.",
  [DL+":DancingMatrix::add_solution", DL+":DancingMatrix::solve"])
p("add_solution's outcome is exactly determined by the history",
  "After any successful history, add_solution(r) returns IndexError exactly if r is beyond the largest row index; InvalidRow exactly if r occurs in no constraint or was knocked out by an earlier row sharing the constraint of that earlier row's last entry; Ok exactly if r conflicts with no earlier row; in all remaining cases it dereferences freed memory.",
  "all matrices and call histories", "The failing case is undefined behaviour and depends on history.",
  [DL+":DancingMatrix::add_solution"])
p("Covering then uncovering a column restores memory exactly",
  "For every reachable matrix and every active column, cover_column followed by uncover_column leaves every node (all five links and the count) identical.",
  "all reachable heaps, all columns", "Requires comparing whole memories for all matrices.",
  [ND+":Node::cover_column", ND+":Node::uncover_column"])
p("A failed search leaves memory untouched",
  "Whenever solve_helper returns false, heap and partial solution are identical to what they were on entry; its size counters never underflow.",
  "all reachable matrices", "Needs an invariant over the full recursion.",
  [DL+":DancingMatrix::solve_helper"])
p("DancingMatrix never leaks or double frees",
  "For every matrix and every sequence of successful add_solution calls followed by solve or by drop, all allocated nodes are freed exactly once and no freed node is accessed.",
  "all matrices, all successful histories, both exits", "Depends on search path; UB not observable by tests.",
  [DL+":Drop", ND+":Node::free_chain", DL+":DancingMatrix::solve_helper"])
# ---- disjoint set
p("common_set answers connectivity",
  "After any sequence of add/union/find/common_set calls, common_set(a,b) returns Some(true) exactly if a and b are linked by a chain of earlier successful unions, Some(false) if both are in range but not linked.",
  "all operation histories of any length", "Unbounded histories with path compression in between.",
  [DS+":DisjointSet::common_set", DS+":DisjointSet::union"])
p("find is a canonical representative and is observationally pure",
  "find(a) returns Some(r) with r in the set of a, the same r for every member of the set; find and common_set never change the answer of any later query.",
  "all histories", "Path compression mutates on reads.", [DS+":DisjointSet::find", DS+":DisjointSet::find_helper"])
p("Out-of-range indices give None and nothing panics or loops",
  "Every DisjointSet operation terminates without panic on every history; find/common_set/union return None exactly if an index is out of range.",
  "all histories, all indices", "find_helper recurses through parent pointers: termination needs an acyclicity invariant.",
  [DS+":DisjointSet"])
p("union merges exactly two sets, keeps sizes right and trees shallow",
  "union(a,b) makes exactly the sets of a and b one set; the count at each root is the number of elements of its set; every parent chain has length at most log2 of the size of its set.",
  "all histories", "Balance bounds hold over all histories or not at all.",
  [DS+":DisjointSet::union"])
# ---- maze
p("create_maze makes a perfect maze",
  "For all width, height >= 1 within the allocation limit (width*height*24 < 2^63 bytes; this limit applies to every create_maze property below) and every outcome of the random draws, the passages of the returned grid form a tree on the width*height cells: every cell is reachable from every other by exactly one simple route.",
  "all positive dimensions with width*height*24 < 2^63, all random outcomes", "Exponentially many random outcomes per size, unboundedly many sizes.",
  [RB+":recursive_backtrack", RB+":visit_next", MZ+":create_maze"])
p("create_maze's outer walls are intact but for one exit",
  "The returned grid has width*height cells, every rightmost cell has its right wall, and exactly one bottom-row cell has no bottom wall.",
  "all positive dimensions with width*height*24 < 2^63, all random outcomes", "Same.", [MZ+":create_maze", RB+":visit_next"])
p("create_maze's solution leads from the start to the exit",
  "Reading the returned directions from last to first and walking from the top-left cell crosses no wall, never leaves the grid and ends in the bottom-row cell whose bottom wall was opened. (False for width 1: directions are wrong for every height >= 2.)",
  "all positive dimensions with width*height*24 < 2^63, all random outcomes", "Same; width 1 is not tested.", [MZ+":create_maze"])
p("create_maze's solution is the shortest route",
  "For width >= 2 the solution visits no cell twice and its length is the distance between start and exit in the maze.",
  "all positive dimensions with width*height*24 < 2^63, all random outcomes", "Optimality over all routes.", [MZ+":create_maze"])
p("The exit is a farthest bottom cell",
  "No bottom-row cell is farther from the start than the exit.",
  "all positive dimensions with width*height*24 < 2^63, all random outcomes, all bottom cells", "Same.", [MZ+":create_maze"])
p("create_maze terminates without panicking for positive dimensions",
  "For all width, height >= 1 (within allocation limits) and all random outcomes create_maze returns; with width or height 0 it panics.",
  "all positive dimensions with width*height*24 < 2^63, all random outcomes", "Termination for every random outcome.",
  [MZ+":create_maze", RB+":recursive_backtrack"])
p("choose_random removes exactly one element",
  "For every vector and every draw, choose_random returns None exactly on the empty vector, otherwise it returns an element and the vector afterwards is a permutation of the original without that one occurrence; every element can be the one chosen.",
  "all vectors, all draws", "All draws.", [UT+":choose_random"])
p("print_maze draws exactly the walls",
  "For every grid of width*height cells whose picture has u32 dimensions and fits in memory print_maze returns a (10*width+1)x(10*height+1) image whose black pixels are exactly the left border, the top border from column 10 on, and the present right and bottom walls; all others are white. It returns InvalidDimensions exactly if the cell count differs from width*height.",
  "all dimensions, grids and pixels", "All pixels of all grids.", [MZ+":print_maze"])
p("print_maze is faithful",
  "Two grids of the same dimensions give the same image only if they are the same grid.",
  "all pairs of grids", "Pairs of unbounded grids.", [MZ+":print_maze"])
p("print_maze_solution never panics",
  "For every image (dimensions at least 11 below 2^32) and every list of directions print_maze_solution returns Ok or Err without panicking or writing outside the image.",
  "all images with sides at least 11 below 2^32, all direction lists", "Unbounded direction lists with u32 subtraction.", [MZ+":print_maze_solution"])
p("print_maze_solution accepts create_maze's own solutions",
  "For every maze produced by create_maze, print_maze_solution(print_maze(maze), solution) returns Ok. (False of the code: it returns Err(InvalidSolution) for every maze.)",
  "all positive dimensions with width*height*24 < 2^63, all random outcomes", "No test calls print_maze_solution.", [MZ+":print_maze_solution", MZ+":print_maze", MZ+":create_maze"])
p("print_maze_solution paints exactly the route",
  "When it returns Ok, the image has the same size, the pixels on the centre line of the walked route (entry stub, one 11-pixel segment per step, exit stub) are red and every other pixel is unchanged.",
  "all images with sides at least 11 below 2^32, all direction lists, all pixels", "All pixels.", [MZ+":print_maze_solution"])
p("print_maze_solution rejects exactly the routes that leave the image",
  "It returns Err(InvalidSolution) exactly if the route leaves the area of the image. (False of the code: steps back into column 0 or row 0 and routes ending in the last row are rejected as well; exact acceptance condition.)",
  "all images with sides at least 11 below 2^32, all direction lists", "Boundary conditions for all positions.", [MZ+":print_maze_solution"])
# ---- nonogram
p("parse_nonogram_rules round-trips",
  "Writing any non-empty list of non-empty rules of usize numbers as decimal text joined by ',' and ';' and parsing it (with a bound every rule fits) gives the list back.",
  "all rule lists", "Infinite input space.", [NG+":parse_nonogram_rules"])
p("parse_nonogram_rules only accepts rules that fit the bound",
  "If the result is Ok, there is one rule per ';'-separated part, one number per ','-separated field, and in each rule the numbers plus the separating gaps do not exceed the bound. (With overflow checks off the sum wraps and the bound can be evaded; with checks on it panics.)",
  "all strings and bounds, both overflow modes", "Needs numbers near 2^64.", [NG+":parse_nonogram_rules"])
p("parse_nonogram_rules reports the first error",
  "A field that is not a usize literal gives InvalidRule with that field; a rule that is too long gives InvalidRuleDimension; the error reported is that of the first offending rule; no other error occurs.",
  "all strings and bounds", "Error precedence for every string.", [NG+":parse_nonogram_rules"])
p("Line deduction is sound",
  "For every line state and every rule that neither starts nor ends with a zero, each square set by one line step has that value in every completion of the line that satisfies the rule; squares already known are never changed.",
  "all lines of fewer than 2^57 squares and rules in which the line is shorter than 2^31 or the rule has fewer than 2^30 numbers, all rules that neither start nor end with a zero and whose state machine fits in memory, all completions", "Exponentially many completions.", [RL+":RuleMachine::right_left", RL+":find_left"])
p("A line is reported unsolvable exactly when it is",
  "For every rule that neither starts nor ends with a zero and every line state, the line step fails with NoSolution exactly if no completion of the line satisfies the rule.",
  "all lines of fewer than 2^57 squares and rules in which the line is shorter than 2^31 or the rule has fewer than 2^30 numbers, all rules that neither start nor end with a zero and whose state machine fits in memory", "Non-existence.", [RL+":find_left"])
p("find_left yields the leftmost arrangement",
  "For a rule that neither starts nor ends with a zero, find_left returns an arrangement that satisfies rule and known squares in which every block is at least as far left as in any other such arrangement.",
  "all lines, all rules that neither start nor end with a zero and whose state machine fits in memory, all arrangements", "Optimality over exponentially many arrangements.", [RL+":find_left"])
p("solve_nonogram never contradicts a solution",
  "For all rules that neither start nor end with a zero, when solve_nonogram returns Ok(grid), every cell marked true is filled in every solution of the puzzle.",
  "all puzzles in which no rule starts or ends with a zero, with at least one row, fewer than 2^63 squares, sides below 2^57, lines shorter than 2^31 or with rules of fewer than 2^30 numbers, and rules whose state machine fits in memory (24*(sum of (entry+1) + 3) < 2^63), all solutions", "All solutions.", [NG+":solve_nonogram", NG+":right_left"])
p("solve_nonogram's NoSolution is truthful",
  "For all rules that neither start nor end with a zero, if solve_nonogram returns Err(NoSolution), no grid satisfies all rules; no other error is returned.",
  "all puzzles in which no rule starts or ends with a zero, with at least one row, fewer than 2^63 squares, sides below 2^57, lines shorter than 2^31 or with rules of fewer than 2^30 numbers, and rules whose state machine fits in memory (24*(sum of (entry+1) + 3) < 2^63)", "Non-existence.", [NG+":solve_nonogram"])
p("solve_nonogram returns solutions",
  "When solve_nonogram returns Ok(grid), grid satisfies every row and column rule. (False of the code: the backtracking phase is an empty stub; holds exactly when propagation decides every square, and then the solution is unique.)",
  "all puzzles", "Only line-solvable puzzles are tested.", [NG+":solve_nonogram", NG+":recursive_backtrack"])
p("solve_nonogram detects unsolvable puzzles",
  "If no grid satisfies the rules, solve_nonogram returns Err(NoSolution). (False of the code; counterexample.)",
  "all puzzles", "Non-existence.", [NG+":solve_nonogram"])
p("solve_nonogram terminates without panicking and returns width*height cells",
  "For every list of column and row rules none of which starts or ends with a zero, with at least one row, solve_nonogram terminates, does not panic, and an Ok result has exactly width*height cells.",
  "all puzzles in which no rule starts or ends with a zero, with at least one row, fewer than 2^63 squares, sides below 2^57, lines shorter than 2^31 or with rules of fewer than 2^30 numbers, and rules whose state machine fits in memory (24*(sum of (entry+1) + 3) < 2^63)", "Fixpoint loop; termination for all inputs.", [NG+":solve_nonogram", NG+":right_left"])
p("Accepted rules can be solved without a crash",
  "solve_nonogram does not panic on rules accepted by parse_nonogram_rules. (False of the code: a rule starting with 0, such as the usual notation for an empty line, reaches unreachable!().)",
  "all parsed rule lists", "Zero rules are not tested.", [NG+":parse_nonogram_rules", RL+":RuleMachine::new", RL+":find_left"])
p("Propagation reaches a fixpoint",
  "When propagation returns, running any row or column step again changes nothing, and every line still has a completion.",
  "all puzzles in which no rule starts or ends with a zero, with at least one row, fewer than 2^63 squares, sides below 2^57, lines shorter than 2^31 or with rules of fewer than 2^30 numbers, and rules whose state machine fits in memory (24*(sum of (entry+1) + 3) < 2^63), from every grid of the right size", "All puzzles.", [NG+":right_left"])
p("print_nonogram draws the grid",
  "print_nonogram returns InvalidDimensions exactly if the rule counts differ from width/height; otherwise the image has size (50*width+max(150,10*width)) x (50*height+max(150,10*height)) and every grid-line pixel is gray; nothing panics for in-range dimensions.",
  "all rules and pixels, all dimensions with image sides below 2^31 and buffer below 2^63 bytes, column rules of fewer than 2^31/30 numbers, every text-drawing function", "All pixels.", [NG+":print_nonogram"])
p("print_nonogram_solution fills exactly the true cells",
  "It returns InvalidDimensions exactly if the cell count or the image size does not match; otherwise exactly the 49x49 interiors of cells marked true become black and all other pixels are unchanged.",
  "all images, grids and pixels, all dimensions with image sides below 2^31 and fewer than 2^32 squares", "All pixels.", [NG+":print_nonogram_solution"])

# ---- exact descriptions of what the code does where a property above is false of it
p("solve_sudoku's memory error happens exactly on one describable class of inputs",
  "solve_sudoku dereferences a freed node exactly when the slice has 81 entries, some clue excludes an earlier one, and for the first such clue x the earliest clue it excludes is not the same digit in the same box. For entries 0..9: the first cell j whose digit repeats an earlier one of its row, column or box, with the earliest such cell i not in j's box.",
  "all byte slices", "The condition depends on the order of all givens; undefined behaviour need not show up in a run.",
  [SUD+":solve_sudoku", DL+":DancingMatrix::add_solution"])
p("What solve_sudoku makes of entries above 9",
  "An entry v at index i is read as the clue number 9*i+v-1 (cell (9i+v-1)/9, digit (9i+v-1)%9+1), and ignored if that is 729 or more. A grid is returned exactly when the clues so obtained do not exclude each other and some finished grid meets them, and the returned grid is such a grid.",
  "all byte slices", "256^81 inputs.", [SUD+":solve_sudoku"])
p("When create_maze's directions are usable",
  "The returned directions lead from the start to the exit exactly if width >= 2 or height = 1; for width 1 they are height-1 times Right.",
  "all positive dimensions with width*height*24 < 2^63, all random outcomes", "All dimensions and draws.", [MZ+":create_maze"])
p("What print_maze_solution accepts",
  "On an image of at least 6x6 pixels the result is Ok exactly if every pixel of the route lies in the image, no step goes left out of column 1 or up out of row 1, and the image continues at least 16 rows below the top of the last cell; otherwise it is Err(InvalidSolution).",
  "all images with sides at least 11 below 2^32, all direction lists", "All images and routes.", [MZ+":print_maze_solution"])
p("The create/print/solve pipeline is always rejected",
  "For all positive dimensions and all random draws, create_maze followed by print_maze followed by print_maze_solution with the maze's own solution returns Err(InvalidSolution).",
  "all positive dimensions whose picture has sides at most 2^32-16 and fits in memory, all random outcomes", "A single failing run would not show that no run succeeds.", [MZ+":create_maze", MZ+":print_maze", MZ+":print_maze_solution"])
p("What parse_nonogram_rules accepts, exactly",
  "Without overflow checks the result is that of the stated grammar with each rule's length (entries plus gaps) reduced modulo 2^64; with overflow checks it is that of the grammar with true lengths, or a panic exactly if the sum of a rule before the first error overflows.",
  "all strings, bounds and build modes", "Infinite input space.", [NG+":parse_nonogram_rules"])
p("What one line step deduces, exactly",
  "For a solvable line the step decides exactly the blank squares that lie in the same block, or in the gap between the same blocks, in every completion; this is less than all that the line determines (witness: rule 1,1 on ? ? # ? ?). On an empty line it decides exactly the squares that have the same value in all fillings.",
  "all lines of fewer than 2^57 squares and rules in which the line is shorter than 2^31 or the rule has fewer than 2^30 numbers, all rules that neither start nor end with a zero and whose state machine fits in memory", "All lines and rules.", [RL+":RuleMachine::right_left", RL+":find_left"])
p("When solve_nonogram's result is a solution",
  "If solve_nonogram returns Ok(grid), grid is a solution exactly if propagation decided every square; it is then the only solution. In particular a puzzle with two solutions is never answered with a solution.",
  "all puzzles in which no rule starts or ends with a zero, with at least one row, fewer than 2^63 squares, sides below 2^57, lines shorter than 2^31 or with rules of fewer than 2^30 numbers, and rules whose state machine fits in memory (24*(sum of (entry+1) + 3) < 2^63)", "All puzzles and all their solutions.", [NG+":solve_nonogram", NG+":recursive_backtrack"])
p("Propagation computes the least stable grid",
  "solve_nonogram reports NoSolution exactly if no grid is stable under the line steps, and otherwise returns the filled squares of the least stable grid; so the result does not depend on the order in which lines are visited.",
  "all puzzles in which no rule starts or ends with a zero, with at least one row, fewer than 2^63 squares, sides below 2^57, lines shorter than 2^31 or with rules of fewer than 2^30 numbers, and rules whose state machine fits in memory (24*(sum of (entry+1) + 3) < 2^63)", "All visiting orders.", [NG+":solve_nonogram", NG+":right_left"])
p("Solving and printing fit together",
  "If solve_nonogram returns Ok(grid), print_nonogram and print_nonogram_solution succeed, and a pixel of the interior of a square is black in the final image if the square is marked true, and as in the printed puzzle otherwise. (The filled squares overpaint the thick grid lines.)",
  "all puzzles in the size ranges of the properties above, all pixels, every text-drawing function", "All puzzles and pixels.", [NG+":solve_nonogram", NG+":print_nonogram", NG+":print_nonogram_solution"])
p("Rows and columns are treated alike",
  "solve_nonogram with rows and columns exchanged returns the transposed grid, or NoSolution exactly if the original does.",
  "all puzzles in which no rule starts or ends with a zero, with at least one row, fewer than 2^63 squares, sides below 2^57, lines shorter than 2^31 or with rules of fewer than 2^30 numbers, and rules whose state machine fits in memory (24*(sum of (entry+1) + 3) < 2^63), and at least one column", "Relates two runs on all puzzles.", [NG+":solve_nonogram", NG+":right_left"])
# ---- how the algorithms work, beyond what they answer (found missing by seeded bugs)
p("find compresses paths",
  "After find(a), every non-root element of the parent chain of a points directly at the root; every other element is unchanged. So immediately afterwards the chain from a has at most one link.",
  "all sizes, all sequences of operations, all elements", "Results of queries are the same without compression, so only the state shows it.", [DS+":DisjointSet::find", DS+":DisjointSet::find_helper"])
p("union links the smaller set under the larger",
  "A union of two different sets makes the root of the larger set the root of both, and returns the other root; on equal sizes the root of the first argument stays.",
  "all sizes, all sequences of operations, all pairs of elements in different sets", "All histories.", [DS+":DisjointSet::union"])
p("solve is Algorithm X with the fewest-rows heuristic",
  "After any sequence of add_solution calls, solve returns exactly what the textbook recursion on plain lists returns on the remaining matrix: take the first column with the fewest rows, try its rows in order, drop the columns met and the rows in conflict, and return the first success.",
  "all matrices without repeated rows in a column, all sequences of add_solution calls", "Exact output, including which of several covers is found, for all matrices.", [DL+":DancingMatrix::solve", DL+":solve_helper", DL+":choose_column"])
p("solve_sudoku solves as by hand, and which completion it returns",
  "On 81 entries whose clues do not exclude each other, solve_sudoku returns the grid that is found by always answering the first of the open questions (digit of a cell; place of a digit in a row, column or box) with the fewest possible answers, trying the answers in order; NoSolution exactly if that finds none.",
  "all byte slices of 81 entries whose clues do not exclude each other", "Exact output also for puzzles with several completions.", [SUD+":solve_sudoku", SUD+":SUDOKU_CONSTRAINTS", DL+":DancingMatrix::solve"])
p("Rules that start or end with a zero are never solved",
  "With a rule that starts with a zero a line step always panics; with one that ends with a zero it panics exactly if the line has a completion. A puzzle with such a rule never gets a grid: solve_nonogram panics or reports NoSolution, the latter only if there is no solution; it always panics if such a rule belongs to a column and the column rules fit, or if the puzzle has a solution. For accepted rules, a panic happens only with such a rule.",
  "all puzzles with at least one row, fewer than 2^63 squares, sides below 2^57, lines shorter than 2^31 or with rules of fewer than 2^30 numbers, and rules whose state machine fits in memory", "All puzzles; the tests have no zeros.", [RL+":find_left", RL+":RuleMachine::right_left", NG+":solve_nonogram"])
p("The parser's size test is exact",
  "An empty line of length n can be completed according to a rule exactly if the size computed by parse_nonogram_rules (sum plus number of gaps) is at most n; so the text of a rule is accepted for lines of length n exactly if some line of that length satisfies the rule.",
  "all rules whose size fits 64 bits, all lengths", "Existence of completions for all rules and lengths.", [NG+":parse_nonogram_rules"])
p("solve_nonogram without rows",
  "With no rows the answer depends on the first column only: Ok of the empty grid for no column or a single column with an empty rule, a panic for an empty rule followed by another column or a rule that starts with a zero, NoSolution otherwise.",
  "all lists of columns whose state machines fit in memory", "All column lists; a degenerate size no test covers.", [NG+":solve_nonogram", NG+":right_left"])
p("Created mazes are depth-first trees",
  "Of any two neighbouring cells of a created maze, separated by a wall or not, one lies on the route from cell 0 to the other. In particular a maze of at least 2 x 2 cells has exactly one passage out of cell 0.",
  "all positive dimensions with width*height*24 < 2^63, all random draws", "Quantifies over all mazes of all sizes.", [RB+":recursive_backtrack", MZ+":create_maze"])
p("recursive_backtrack makes exactly the depth-first mazes",
  "A grid is returned by recursive_backtrack for some random draws if and only if it is a closed maze whose passages form a depth-first tree. create_maze makes each of them, up to the bottom wall of one cell of the last row.",
  "all positive dimensions with width*height*24 < 2^63, all grids", "An equivalence between an existential over infinite draw sequences and a graph property.", [RB+":recursive_backtrack"])
p("Only the first 4wh draws matter",
  "Two sequences of random draws that agree on the first 4*width*height values give the same maze, exit and solution.",
  "all positive dimensions with width*height*24 < 2^63, all pairs of draw sequences", "All pairs of infinite sequences.", [RB+":recursive_backtrack"])
p("The exit among equally distant cells",
  "For widths of at least 2, the solution read from the start is, among all routes without repetition from cell 0 to a cell of the last row, the last in the order by length and then direction by direction (right, down, left, up); this determines exit and solution from the walls alone.",
  "all widths at least 2, all heights at least 1 with width*height*24 < 2^63, all random draws, all routes", "All routes in all mazes; ties are rare in tests.", [MZ+":create_maze"])
p("Mirrored nonograms have mirrored answers",
  "Solving a nonogram with the columns in reverse order and every row rule reversed gives NoSolution exactly if the original does, and otherwise the mirrored grid; likewise upside down.",
  "all puzzles within the size limits of the nonogram properties above in which no rule starts or ends with a zero (with a column, for upside down)", "The line step scans from both ends; all puzzles of all sizes.", [NG+":solve_nonogram", RL+":right_left"])
p("Error texts identify errors",
  "Two values of the same error type with the same Display text are equal, payload included.",
  "all pairs of error values", "Payloads are unbounded texts and numbers.", [SUD+":SudokuError", MZ+":MazeError", NG+":NonogramError", DL+":DancingLinksError"])
p("Turns of create_maze's loops",
  "The outer loop of recursive_backtrack makes exactly 2*width*height-1 turns and consumes exactly 4*width*height random draws; the search of create_maze takes at most width*height cells from its queue.",
  "all positive dimensions with width*height*24 < 2^63, all random draws", "Exact running times for all sizes and draws.", [RB+":recursive_backtrack", MZ+":create_maze"])
p("Passes of the nonogram propagation",
  "The number of passes over columns and rows is at most one more than the number of squares unknown at the start less the number still unknown at the end.",
  "all puzzles within the size limits of the nonogram properties above in which no rule starts or ends with a zero, all starting grids", "Running time bound for all sizes.", [NG+":right_left"])
p("The law of the mazes",
  "With fair draws, recursive_backtrack makes every maze exactly as often as the textbook recursive depth-first search in which every cell independently tries the four directions in a uniformly random order; in particular for at least two rows and columns exactly half of the draws open the right side of cell 0 and half its bottom.",
  "all positive dimensions with width*height*24 < 2^63, all mazes, all sequences of 4*width*height draws uniform over any number of values divisible by 12", "A statement about all 12^(4wh) sequences of draws at once.", [RB+":recursive_backtrack", RB+":visit_next", UT+":choose_random"])
p("Rows and columns are equally likely",
  "A maze of w columns and h rows and the maze obtained by exchanging rows and columns are made by recursive_backtrack for equally many sequences of draws.",
  "all positive dimensions with width*height*24 < 2^63, all mazes, every number of values per draw divisible by 12", "A statement about all sequences of draws at once.", [RB+":recursive_backtrack"])
p("Depth of the recursion",
  "After any history solve needs at most one frame of solve_helper per constraint plus one; if every row satisfies at least k constraints, the number of constraints divided by k, plus one; k rows found need more than k frames. For sudoku 82 frames always suffice and are needed on the empty grid, so the stack depth is bounded whatever the puzzle.",
  "all constraint matrices in which no constraint names a row twice, all add_solution histories; all sudoku histories", "A stack bound for all inputs.", [DL+":solve_helper", SUD+":solve_sudoku"])
p("For which dimensions create_maze returns",
  "create_maze returns a maze exactly when both dimensions are positive and the true product width*height is within the allocation limit (24 bytes per cell, 2^63 in all); in every other case it panics, in both build modes and in particular when width*height wraps around in a release build. It never runs forever and never returns a maze for wrapped dimensions.",
  "all pairs of usize dimensions, all random draws, both build modes", "Dimensions whose product wraps around cannot be tried out.", [MZ+":create_maze", RB+":recursive_backtrack"])
p("Constraints that name a row twice",
  "For every list of constraints, including constraints that name the same row more than once, new followed by add_solution or solve returns without touching freed memory.",
  "all lists of lists of row indices", "All matrices; the only caller in the crate passes duplicate-free constraints.", [DL+":new", DL+":solve", DL+":add_solution", ND+":cover_column"])
p("Rearranged sudokus",
  "If a sudoku is rearranged by a symmetry (exchanging rows and columns, turning or mirroring the grid, permuting the rows or columns inside a band, permuting bands or stacks, renaming the digits, and every combination of these), solve_sudoku returns a grid for the rearranged puzzle exactly if it does for the original one. If the original puzzle has only one completion, the grid returned for the rearranged puzzle is the rearranged grid.",
  "every 81-cell puzzle with entries 0 to 9 and every pair of bijections, of cells (mapping units onto units) and of digits",
  "more than 10^12 symmetries, times all puzzles; a metamorphic relation can only be sampled by tests.",
  [SUD + ":solve_sudoku"])

p("The directions of a route, counted",
  "In the directions returned by create_maze for width at least 2, Right occurs exactly x times more often than Left, x being the column of the exit, and Down exactly height - 1 times more often than Up. So their number is x + height - 1 plus an even number; it is below width * height. No direction is followed by its opposite.",
  "every width >= 2, height >= 1 within memory limits, every sequence of random draws",
  "mazes are random and unbounded in size.",
  [MZ + ":create_maze", RB + ":recursive_backtrack"])

p("Number of calls of solve_helper",
  "After any history of add_solution calls, solve calls solve_helper exactly once for each node of the search tree of Algorithm X (first constraint with fewest rows, rows in order) that is visited up to the first solution, or of the whole tree if there is none. In particular, if a constraint has no rows left, solve fails after a single call.",
  "every constraint matrix without repeated rows in a constraint, every history of add_solution calls",
  "the running time of a search over an unbounded family of matrices; tests see only results.",
  [DL + ":DancingMatrix::solve_helper", DL + ":DancingMatrix::solve"])

p("Sudokus solved by singles need no backtracking",
  "If the clues of a sudoku do not exclude each other and the puzzle can be finished by singles (again and again some cell has only one candidate left, or some digit has only one place left in a row, column or box), then it has exactly one completion, solve_sudoku returns it, and it never goes back on a choice: solve_helper is called once for every cell to fill in and once more. This holds no matter in which order the singles are found by hand.",
  "every 81-entry puzzle that can be solved by singles",
  "the class of such puzzles is far too large to sample, and backtracking is invisible in the results.",
  [SUD + ":solve_sudoku", DL + ":DancingMatrix::solve_helper"])

p("A picture and its rules",
  "For every picture of at least one row and one column, its rules in the usual notation (runs of filled squares) are accepted. If no row and no column of the picture is empty, solve_nonogram returns Ok, every square it fills is filled in the picture, and its answer satisfies the rules exactly if it is the picture. If some line is empty, it panics.",
  "every picture (list of width * height booleans), every width and height from 1 on with sides below 2^57, fewer than 2^63 squares, and lines shorter than 2^31 or with fewer than 2^30 blocks",
  "2^(width*height) pictures for each of infinitely many sizes.",
  [NG + ":solve_nonogram", NG + ":parse_nonogram_rules"])

p("Squares fixed by one rule",
  "A square where the leftmost and the rightmost arrangement of a run overlap is filled in every grid that solve_nonogram returns. If for every square the rule of its row or of its column has at most one arrangement, solve_nonogram is correct: it returns the only solution, or NoSolution if there is none. A rule has at most one arrangement exactly if it is empty or fills the line. Puzzles with one row or one column are solved correctly.",
  "all puzzles within the size limits of the nonogram properties above in which no rule starts or ends with a zero",
  "infinitely many puzzles.",
  [NG + ":solve_nonogram", RL + ":right_left"])

p("Stack frames of find_helper",
  "After any history of operations, find_helper on an element needs exactly one stack frame more than the number of parent links from it to its root: it returns its result with that many frames and not with one fewer. The number of links is at most log2 of the size of its class.",
  "every history of operations, every element",
  "stack usage is not visible in results, and histories are unbounded.",
  [DS + ":find_helper"])

p("A route over the picture of a maze",
  "In the picture drawn by print_maze, a route that stays inside the picture touches only white pixels exactly if a walker in the maze can follow it from the entrance and leave through the bottom of its last cell. The solution of every created maze at least two cells wide stays inside its picture and touches only white pixels. If print_maze_solution accepts a list of directions, it paints over a black pixel exactly if the directions are no such walk.",
  "every maze within the size limits of the image crate, every list of directions, every sequence of random draws",
  "all mazes times all routes; a test compares single images.",
  [MZ + ":print_maze", MZ + ":print_maze_solution", MZ + ":create_maze"])

p("Amortised cost of the disjoint sets",
  "Starting from n elements, any sequence of add, find, common_set and union calls makes at most (K+2)*F + K*N calls of find_helper in all, where F is the number of find calls made (directly or by the other functions), N the number of elements at the end, and K any number with log2 N < A_K(1), A_0(j) = j+1, A_{k+1}(j) = A_k iterated j+1 times on j: the inverse Ackermann bound. For fewer than 2^64 elements this is at most 5*F + 3*N.",
  "all n, all sequences of operations of any length",
  "an amortised bound speaks about whole histories; single calls can be logarithmic, and no test can see a growth rate.",
  [DS + ":find_helper", DS + ":find", DS + ":union"])

p("More and fewer clues",
  "If solve_sudoku finds a grid for a puzzle, it finds one after erasing clues. If a puzzle has only one completion, entering any of its digits does not change the answer. Solving an answer gives the answer again. Whether the answer is the only completion can be found out with the solver: there is another exactly if, for some empty cell and some digit other than the answer's, the puzzle with that digit entered is still solved. If the clues are symmetric, the rearranged answer is a completion too; so there is a second completion whenever two digits do not occur among the clues, or two rows of one band, or two columns of one stack, are empty.",
  "every 81-cell puzzle with entries 0 to 9, every set of clues added or erased, all symmetries",
  "relations between the answers for different puzzles; uniqueness is a statement about all completions.",
  [SUD + ":solve_sudoku"])

p("Printed nonogram solutions can be read",
  "If no square of the image is entirely black before, then after print_nonogram_solution a square is marked true exactly if its whole interior is black. So different grids give different images. Printing a second grid over the first gives the image of the union of both.",
  "every size within the 32-bit limits, every image of the right size, every grid",
  "all grids of all sizes, all images.",
  [NG + ":print_nonogram_solution"])

p("Printed sudokus can be read",
  "Provided the font writes each digit into a box of 70 times 90 pixels, with pictures that differ pairwise and from a white box: in the image made by print_sudoku each cell shows the picture of its digit (white for an empty cell), the rest of the image is the empty grid, different puzzles have different images, and the image of an answer of solve_sudoku shows all clues as the image of the puzzle does.",
  "every puzzle with 81 entries 0 to 9, every font with the stated property, both build modes",
  "10^81 puzzles.",
  [SUD + ":print_sudoku", SUD + ":solve_sudoku"])

p("Steps of solve_nonogram",
  "Count as steps the turns of all loops and the items of all vectors made, collected, mapped or cloned. solve_nonogram on w columns and h rows, whose rules have at most M as the sum of their numbers plus their length, makes at most 2wh + 2(M+2)(w+h) + (wh+1)(w*L(h) + h*L(w)) steps with an explicit polynomial L(n) for one line of n squares. For n by n puzzles whose rules fit into their lines this is at most 420*n^6: the line solver is polynomial although a line can have exponentially many fillings.",
  "all puzzles within the size limits in which no rule starts or ends with a zero, both build modes",
  "a bound on the running time for all inputs; timing tests only see single inputs.",
  [NG + ":solve_nonogram", RL + ":find_left"])

p("Steps of create_maze",
  "Count as steps the turns of all loops, the calls of find_helper and the items of all vectors made. create_maze on w*h cells makes at most 71*w*h steps, whatever is drawn.",
  "all positive dimensions whose vectors can be allocated, all sequences of random draws, both build modes",
  "a linear bound for all sizes and all draws needs an amortised argument; a timing test sees one run.",
  [MZ + ":create_maze", RB + ":recursive_backtrack", DS + ":find_helper"])

p("Size of the search",
  "If no constraint has more than b rows, every row lies in at least q constraints and at most q*d constraints are left after the add_solution calls, solve calls solve_helper at most 1 + b + ... + b^d times; for a sudoku with n clues at most 1 + 9 + ... + 9^(81-n) times. The exponential growth is real: for every n there is a problem with n+3 constraints of two rows each, on which solve answers NoSolution after exactly 2^(n+2)-1 calls.",
  "all duplicate-free constraint lists, all histories of add_solution, all 81-cell puzzles; all n for the lower bound",
  "a worst case over all problems; the lower bound is an infinite family.",
  [DL + ":solve_helper", DL + ":solve", SUD + ":solve_sudoku"])

p("The answers do not depend on where nodes are allocated",
  "Making a DancingMatrix, calling add_solution for any rows and then solve gives the same answers wherever the allocator puts the nodes and whatever else is in memory, and whether it uses freed memory, panics or runs forever does not depend on it either. On return no other memory has been changed and, if no constraint names a row twice, all the nodes have been freed. The same holds for solve_sudoku.",
  "every allocator that returns different non-null addresses, every other content of the memory, every constraint matrix, every list of rows, every puzzle",
  "tests run under one allocator; comparisons of pointers could depend on addresses without any test showing it.",
  [DL + ":DancingMatrix::new", DL + ":DancingMatrix::add_solution", DL + ":DancingMatrix::solve", ND + ":Node::new", SUD + ":solve_sudoku"])

p("What happens when an allocation fails",
  "DancingMatrix::new calls alloc once for the root, once for every constraint and once for every entry, and does not check the results: it returns if none of them is null, and writes through a null pointer if one of them is. For solve_sudoku these are 3241 allocations.",
  "every allocator whose non-null results differ, every constraint matrix, every puzzle of 81 entries, whichever allocation fails",
  "alloc does not fail in tests.",
  [ND + ":Node::new", ND + ":Node::new_header", DL + ":DancingMatrix::new", SUD + ":solve_sudoku"])

p("Stored mazes",
  "A maze and its directions survive being serialised and deserialised, in formats with names as well as in formats with positions, and different mazes are stored differently. A cell is accepted exactly if it is a map that gives right once and down once, with boolean values, in any order and among any unknown fields, or a sequence beginning with the two values; a direction exactly if it is one of the four names or positions without payload; a maze exactly if it is a sequence of accepted cells.",
  "every grid, every list of directions, every value of serde's data model",
  "the set of values is infinite; the repository has no test of it.",
  [MZ + ":MazeNode", MZ + ":MazeDirection"])

p("The depth of the trees is attained",
  "For every number n of elements there are fewer than n unions after which find, for some element, follows log2(n) links and needs log2(n) + 1 nested calls of find_helper, so the bounds of C23 and C89 are the best possible.",
  "every n > 0", "a statement about every number of elements.",
  [DS + ":union", DS + ":find_helper"])

p("Steps at the level of pointers",
  "Counting one step for every next of an iterator, every call on a node and every turn of a loop: new makes one step for each node and each entry of the table of rows; add_solution makes at most 1 step, and 11 for each node it removes, so that any history costs at most 12 steps per node and 1 per call beyond the table; solve makes at most 15 steps for each node left and each call of solve_helper; giving back a matrix at most 4 per node left. solve_sudoku, whenever it returns, makes at most 48615 steps for each call of solve_helper and 53000 besides; a puzzle that singles solve takes at most 48615 * (82 - clues) + 53000.",
  "every constraint matrix without repeated entries, every history of add_solution calls, every puzzle",
  "step counts are not visible to tests, and the bound is for all sizes.",
  [DL + ":DancingMatrix::new", DL + ":DancingMatrix::add_solution", DL + ":DancingMatrix::solve", DL + ":DancingMatrix::solve_helper", ND + ":Node::cover_column", ND + ":Node::uncover_column", SUD + ":solve_sudoku"])

p("Shortest and longest possible route of a created maze",
  "For every width >= 1 and height >= 1 accepted by create_maze, and every sequence of random draws, the returned solution has at least width + height - 2 directions and at most width * height - 1; for every such width and height some draws give a solution of exactly width + height - 2 directions and some draws give one of exactly width * height - 1.",
  "all widths, heights (width * height * 24 < 2^63), overflow modes and draw sequences; existence of draws for each width and height",
  "the extremes are reached by a vanishing fraction of the draws, and a bound over all draws needs a proof",
  [MZ+":create_maze", RB+":recursive_backtrack", RB+":visit_next"])

p("Where the exit of a created maze can be",
  "For width >= 2 the solution of a created maze passes through both neighbours of the exit cell in the last row (those that exist). A maze of one row has its exit in the last column; a maze of width 3 never has its exit in the middle column; a maze of two rows and at least three columns never has it in the second column. With at least two rows some draws put the exit into the first column and some into the last.",
  "all positive dimensions within the memory limit, all sequences of random draws; existence of draws for each width and height",
  "that a column is never chosen is a statement about all draws of all sizes",
  [MZ+":create_maze", RB+":recursive_backtrack", RB+":visit_next"])

p("print_maze on every input",
  "For a grid of width * height cells: with overflow checks print_maze returns a picture exactly if 10*width+1 and 10*height+1 fit in u32 and the buffer fits in an allocation, and panics otherwise; without overflow checks the dimensions and all coordinates are taken modulo 2^32, and it returns a picture exactly if the buffer fits and every wall pixel, so reduced, lies inside it, and panics otherwise. In both cases every pixel of the picture is known: left border, top border from pixel 10 on, and the walls, cell c being drawn at the place of cell c mod 2^32. For drawable dimensions, two different grids with equal pictures exist exactly if there are more than 2^32 cells; a release build draws a row of 429496730 open cells 5 pixels wide.",
  "all grids and dimensions, both overflow modes", "the boundary cases need gigabytes of cells.",
  [MZ+":print_maze"])

p("print_maze_solution on images of every size",
  "For every image of at least 6 x 6 pixels with u32 dimensions and every list of directions, print_maze_solution panics exactly if some step, all steps before it being accepted, goes right out of column 429496728 or down out of row 429496728, or if all steps are accepted and the route ends in row 429496728 and either overflow checks are on or the image has fewer than 4294967291 rows. It returns a picture exactly if all steps are accepted and the image continues 16 rows below the top of the last cell, or the route ends in row 429496728 of an image of at least 4294967291 rows without overflow checks; exactly the route is then red. Otherwise it returns InvalidSolution. No route panics exactly on images with a dimension below 6 or with both dimensions at most 2^32 - 11.",
  "all images, routes and overflow modes", "the boundary cases need images of more than 2^32 - 11 columns or rows.",
  [MZ+":print_maze_solution"])

p("Where print_nonogram puts the numbers",
  "The numbers above a column are drawn 30 pixels high, below each other from pixel row 10 on. For the rules without zeros that fit into a column they all stay clear of the horizontal grid lines exactly if the puzzle has at most 8 rows, and all begin above the grid exactly if it has at most 10; with 9 rows or more, a column 1,1,...,1 has a number that a grid line is drawn across. They always end inside the picture, and the text of a row always lies between two grid lines.",
  "all numbers of columns and rows, all rules without zeros of the given minimal length, every font",
  "tests compare single pictures with stored ones; the statement is about all puzzles.",
  [NG+":print_nonogram"])

p("print_nonogram_solution with any number of squares",
  "For sides below 2^31 and any number of squares, print_nonogram_solution blackens exactly the interiors of the squares marked true, square i being drawn at the place of square i mod 2^32; on a blank image different grids give different pictures exactly if there are at most 2^32 squares. With overflow checks, for all u32 dimensions, it panics if a margin (10 times a dimension) overflows, before the number of squares is looked at; then rejects a wrong number of squares; then panics if a side overflows or rejects an image of another side, first for the width and then for the height.",
  "all dimensions (sides below 2^31 for the pictures), all images and grids", "the boundary cases need billions of squares.",
  [NG+":print_nonogram_solution"])

p("Every simple path from the first cell can be carved",
  "For every list of cells that starts with cell 0, visits no cell twice and goes from each cell to a neighbour of it there are draws for which the list can be walked in the created maze; if in addition the list visits every cell of the last row and ends there, and the width is at least 2, there are draws for which the returned solution is exactly this list of cells.",
  "all positive dimensions within the memory limit, all simple paths, both overflow modes",
  "the number of simple paths grows exponentially with the number of cells.",
  [MZ+":create_maze", RB+":recursive_backtrack", RB+":visit_next"])

p("The possible columns of the exit, exactly",
  "For every size and every column there are draws that put the exit of the created maze into that column, except: all columns but the last when there is one row, the middle column when the width is 3, and the second column when there are two rows and at least three columns.",
  "all positive dimensions within the memory limit, all columns, both overflow modes",
  "possibility needs a search among exponentially many mazes, impossibility a statement about all of them.",
  [MZ+":create_maze", RB+":recursive_backtrack", RB+":visit_next"])

p("print_nonogram on every input",
  "With overflow checks print_nonogram returns the picture of C50 exactly if both sides are below 2^32, the buffer is below 2^63 bytes and no column has more than 143165577 numbers, and panics otherwise. Without overflow checks all positions are cut to 32 bits; it returns exactly if the buffer of the cut sides is below 2^63 bytes and all pixels of grid lines lie in the picture, which is then the one with all positions cut, and panics otherwise. Where the first returns a picture the second returns the same. For 2^30 columns and rows the second returns an empty picture, the first panics.",
  "all column and row rules, every font, both overflow modes (drawing a text is taken to return)",
  "the boundary cases need pictures with sides of billions of pixels.",
  [NG+":print_nonogram"])

p("The puzzles on which solve_nonogram panics, exactly",
  "solve_nonogram panics exactly if some rule starts or ends with a zero and, for the first such rule in the order columns, rows: it belongs to a column, starts with the zero or fits, and the columns before it fit; or it belongs to a row, all columns fit, each row before it has a filling that agrees with all squares whose value is the same in all fillings of their column, and the rule starts with the zero or its row has such a filling. All other puzzles with such a rule are answered with NoSolution.",
  "all puzzles with at least one row within the size limits, both overflow modes",
  "the condition quantifies over all fillings of all columns; a test sees one puzzle.",
  [NG+":solve_nonogram", NG+":right_left", RL+":RuleMachine::right_left", RL+":find_left"])

p("Debug and release builds",
  "Whatever the input, a debug build (overflow checks) either panics or has the same outcome as a release build (wrapping arithmetic): the same value, error, panic or non-termination. For create_maze, print_sudoku and, on puzzles within the size limits, solve_nonogram the two builds always have the same outcome, panics included.",
  "all inputs of create_maze, print_maze, print_maze_solution, print_sudoku, parse_nonogram_rules, solve_nonogram, print_nonogram and print_nonogram_solution, all random draws",
  "a relation between two builds of the program; tests run one of them, and inputs on which they differ are huge.",
  [MZ+":create_maze", MZ+":print_maze", MZ+":print_maze_solution", SUD+":print_sudoku", NG+":parse_nonogram_rules", NG+":solve_nonogram", NG+":print_nonogram", NG+":print_nonogram_solution"])

p("Stack and queue of create_maze",
  "In every state reached by the loop of recursive_backtrack the stack is a route through the maze as carved so far: it starts in the first cell, each cell is one move from the one before, and no cell occurs twice. So it never holds more than width*height cells, a bound that is attained in every grid for suitable draws. After n turns of the search n different cells have been taken from the queue, and the cells in it are different from those and from each other, so at most width*height-n.",
  "all positive dimensions within the allocation limit, all draws, all numbers of turns",
  "an invariant of every intermediate state for all random sequences; tests see results.",
  [RB+":recursive_backtrack", MZ+":create_maze"])

p("solve_nonogram against solving line by line",
  "Call a partly solved grid closed if every row and column has a completion and, for each of its unknown squares, two completions that differ there: no line by itself tells more. Every square that solve_nonogram fills is filled in all closed grids; if it reports NoSolution there is no closed grid; if it solves the puzzle, the solution is the only closed grid. The solver uses less than the lines tell: there is a puzzle whose only closed grid is its solution, on which it returns a grid that is not the solution, and a puzzle without closed grids on which it returns a grid.",
  "all puzzles within the size limits in which no rule starts or ends with a zero; the last part by two puzzles, for every build",
  "compares the propagation with the strongest reasoning on single lines, over all puzzles; tests check chosen puzzles.",
  [NG+":solve_nonogram", NG+":right_left", RL+":RuleMachine::right_left"])

p("Blank lines at the border of a nonogram",
  "Adding a row or column with the empty rule at one of the four borders of a puzzle does not change what solve_nonogram says about the rest: NoSolution is reported for the larger puzzle exactly if it is for the smaller one, and otherwise the larger answer is the smaller one with a blank line added on that side.",
  "all puzzles within the size limits in which no rule starts or ends with a zero (with a column, for the sides and the bottom), all four borders, every build",
  "an equation between the answers to two puzzles, for all puzzles of all sizes.",
  [NG+":solve_nonogram", NG+":right_left", RL+":RuleMachine::right_left"])
p("The dimensions for which solve_nonogram is always right",
  "Every puzzle with at most one column or with exactly one row is answered with its solution, or with NoSolution if there is none. For all other dimensions there is a puzzle that has a solution and is answered with a grid that is none. For all other dimensions but 2x2 there is also a puzzle without a solution that is answered with a grid; at 2x2 unsolvable puzzles are always recognised.",
  "all dimensions with at least one row, sides below 2^57 and fewer than 2^63 squares; for the positive parts all puzzles of those dimensions in which no rule starts or ends with a zero, every build",
  "a statement about all puzzles of a dimension and about all dimensions; tests use four puzzles.",
  [NG+":solve_nonogram", NG+":right_left", RL+":RuleMachine::right_left"])

p("The dimensions for which uniquely solvable puzzles are solved",
  "A puzzle with at most three rows and three columns that has exactly one solution is answered with it (as is every puzzle with a single row or column, C117). For all other dimensions, two or more rows and columns and four or more of one of them, there is a puzzle with exactly one solution on which solve_nonogram returns a grid that is not the solution.",
  "all dimensions with sides below 2^57 and fewer than 2^63 squares; for the first part all puzzles of those dimensions in which no rule starts or ends with a zero, every build",
  "a statement about all puzzles of a dimension and about all dimensions; tests use four puzzles.",
  [NG+":solve_nonogram", NG+":right_left", RL+":RuleMachine::right_left"])

p("Dead ends of created mazes",
  "In a created maze two cells next to each other, with or without a wall between them and neither of them the first cell, are never both dead ends (cells with exactly one passage). So at most half of the cells are dead ends besides the first cell; a maze of at least two cells has at least one such dead end, and for all dimensions some draws give exactly one. recursive_backtrack can make every perfect maze (closed outer walls, passages forming a tree) exactly if there is only one row or only one column.",
  "all dimensions of at least 1 within the allocation limit, all random draws, all pairs of neighbouring cells, all perfect mazes",
  "a statement about every maze and every neighbouring pair of cells, and about the set of all mazes the generator can reach.",
  [MZ+":create_maze", RB+":recursive_backtrack", RB+":visit_next"])

p("From the entered text to the picture",
  "Sudoku: for every text of 81 digits that can be completed (0 for an empty cell), parse_sudoku, solve_sudoku and print_sudoku succeed one after the other and, provided the font is readable, the image shows cell by cell a finished sudoku with the digits of the text; for a text that cannot be completed solve_sudoku reports NoSolution or has the memory error of C52. Nonogram: for every picture without empty lines, the texts of its rules are parsed, solved, printed and printed with the answer without an error; only squares filled in the picture are painted, and exactly those if the answer satisfies the rules.",
  "all texts of 81 digits; all pictures of 1 to 65535 rows and columns without empty lines; both build modes; all fonts",
  "quantifies over all texts and pictures and composes five functions whose tests are separate; only a proof shows that what one accepts the next one can handle.",
  [SUD+":parse_sudoku", SUD+":solve_sudoku", SUD+":print_sudoku", NG+":parse_nonogram_rules", NG+":solve_nonogram", NG+":print_nonogram", NG+":print_nonogram_solution"])

p("How likely each maze is",
  "For fair draws (as in C78), a maze that recursive_backtrack can return is returned with probability 1 divided by a product over its passages: a passage from cell c, taken in the direction that leads away from cell 0, contributes the number of neighbours of c (behind a wall or not) that lie beyond the passage. The product is 2^((w-1)(h-1)) times (3/4)^t, where t is the number of passages with three such neighbours.",
  "all positive dimensions with w*h*24 < 2^63, all closed depth-first mazes (C71: exactly those that can be returned), both build modes, every number of draws divisible by 12",
  "an exact probability for every maze of every size; sampling gives estimates for small grids only.",
  [RB+":recursive_backtrack", RB+":visit_next", UT+":choose_random"])

p("The number of mazes, and when they are equally likely",
  "recursive_backtrack can return at most 2^((w-1)(h-1)) different mazes, and exactly that many if and only if a side is at most 2. All mazes that it can return are equally likely if and only if a side is at most 2. None has a probability below 1/2^((w-1)(h-1)), and the maze that goes through all cells row by row has exactly that probability.",
  "all positive dimensions with w*h*24 < 2^63, both build modes, every positive number of draws divisible by 12",
  "counts the results over all draws for all dimensions at once.",
  [RB+":recursive_backtrack", RB+":visit_next", UT+":choose_random"])

p("How likely each created maze is",
  "Two runs of create_maze return the same maze if and only if the runs of recursive_backtrack inside them do, and then also the same solution: opening the exit hides no difference and the search adds none. So a maze with its exit and solution is created with exactly the probability of C121, and create_maze has at most 2^((w-1)(h-1)) different results, exactly that many if and only if a side is at most 2.",
  "all positive dimensions with w*h*24 < 2^63, all pairs of random draws, both build modes; for the probability every number of draws divisible by 12",
  "relates all pairs of runs and counts results over all draws, for all dimensions at once.",
  [MZ+":create_maze", RB+":recursive_backtrack"])

p("The most likely mazes, and how few mazes there can be",
  "No maze is returned by recursive_backtrack with a probability above (4/3)^((w-2)(h-2)) / 2^((w-1)(h-1)), and some maze has exactly that probability if and only if a side is at most 3 (read w-2 as 0 for w = 1, and likewise h-2). So at least 2^((w-1)(h-1)) * (3/4)^((w-2)(h-2)) different mazes can be returned, exactly that many if and only if a side is at most 2.",
  "all positive dimensions with w*h*24 < 2^63, all grids, both build modes; for the probability every positive number of draws divisible by 12",
  "compares the numbers of draws of all mazes of all dimensions; both are exponential in w*h.",
  [RB+":recursive_backtrack", UT+":choose_random"])

p("print_nonogram_solution on large images and with wrapping numbers",
  "With overflow checks, if a side of the image has at least 2^31 pixels and both have fewer than 2^32, print_nonogram_solution on a grid and an image of the right size panics if some marked square contains pixel column or row 2^31-1 and otherwise returns the image unchanged: no marked square is drawn. With wrapping numbers, for all inputs: a grid or an image of another size than the wrapped one gives InvalidDimensions; without marked squares the image is unchanged; with a marked square and a wrapped side of 0 it panics; otherwise exactly the pixels of the marked squares become black, each square being the 49 pixels from its wrapped position, read as a signed number, as far as they are in the image, and nothing if they would reach 2^31 or the image is larger than 2^31. In both build modes a picture with a side from 2^31 up to 2^32 comes back without any of the solution.",
  "all dimensions, images and grids",
  "an image with a side of 2^31 pixels needs more than a terabyte, and the claim is about every pixel of every such image.",
  [NG+":print_nonogram_solution"])

p("The bytes of image_to_png_bytes",
  "image_to_png_bytes returns the error of the encoder, if there is one, and otherwise exactly the bytes the encoder wrote, in the order in which they were written. With an encoder that loses nothing, two images give the same bytes if and only if they have the same size and the same pixels; so the bytes of a printed maze determine its dimensions and every wall, those of a printed sudoku (with a readable font) every cell, and those of a printed nonogram solution the marked squares.",
  "all images, all encoders, mazes of all printable dimensions, all sudokus, all nonogram solutions",
  "quantifies over all pairs of images and over the encoder, which belongs to another crate.",
  ["src/lib.rs:image_to_png_bytes", MZ+":print_maze", SUD+":print_sudoku", NG+":print_nonogram_solution"])

p("Passes of the propagation that are really needed",
  "For every k there is a nonogram with two rows and 4k+2 columns that solve_nonogram solves, but only after at least 2k-1 passes over all rows and columns that change the grid: a quarter of the number of its squares, less two. So the bound of C77, one pass for every unknown square, cannot be improved by more than the factor 4, not even for solvable puzzles.",
  "all k with 4k+2 < 2^31, both build modes; every bound on the number of passes that holds for all solvable puzzles",
  "a lower bound for infinitely many puzzles; a test can count the passes of single puzzles only and says nothing about every possible bound.",
  [NG+":solve_nonogram", NG+":right_left", RL+":RuleMachine::right_left"])

p("Row numbers too large for DancingMatrix::new",
  "On a target whose usize and pointers have ws bytes, DancingMatrix::new gives the result of the unlimited model exactly when the capacity that the vector of rows needs (doubled at each growth, or raised to what is needed, never below 4) stays below 2^(8*ws-1) bytes, and panics otherwise. So with row numbers i for which 2*ws*i is below 2^(8*ws-1) (i below 2^59 on 64-bit targets) the vector of rows in DancingMatrix::new grows without panic and the result is that of the unlimited model. With a row number for which ws*(i+1) is 2^(8*ws-1) or more (2^60-1 on, on 64-bit targets), new panics in debug and release builds (capacity overflow, or the wrapped index + 1 for the last usize value), and the nodes allocated so far are leaked: the root, one header for each column begun, one node for each cell before the row number at which the vector fails to grow.",
  "all lists of columns of usize row numbers, both build modes, ws = 2, 4, 8",
  "the inputs that fail need vectors of 2^60 entries or the end of the usize range, and a leak after a panic is invisible to an ordinary test.",
  [DL+":DancingMatrix::new", ND+":Node::new", ND+":Node::new_header"])

p("The i32 block counters of the nonogram line step",
  "With overflow checks a line step panics exactly if the line can be completed and the rule asks for more than 2^30 blocks, or for exactly 2^30 and the last square can stay empty. Without overflow checks it never panics, reports NoSolution exactly for lines that cannot be completed, and with fewer than 2^31 blocks sets exactly the settled squares as in C58; with 2^31 blocks or more it is wrong: on a long enough empty line with blocks of length one it blocks square 2^32-1, which is filled in some completion.",
  "all rules that neither start nor end with a zero and whose state machine fits in memory, all lines of fewer than 2^57 squares, both build modes; for the wrong square all rules of k >= 2^31 ones and all empty lines of at least 2^32 + 2k and fewer than 2^57 squares",
  "the counters overflow only for rules with a billion numbers.",
  [RL+":RuleMachine::right_left"])

p("What an answer is worth when constraints repeat rows",
  "Whatever the constraints, and whatever the build does when a counter leaves its range: the rows accepted by add_solution are distinct, occur in the matrix, and no constraint contains one of them twice or two of them; and when solve returns Ok, the rows it adds have the same property together with the accepted ones. It need not be an exact cover: with repeated rows solve can return Ok and leave a constraint unsatisfied, even one without repetitions, it can report NoSolution although there is an exact cover that meets every constraint once, and the two builds differ (overflow checks panic where a release build answers, reports NoSolution wrongly or uses freed memory).",
  "all lists of constraints (repetitions allowed), all histories of add_solution calls that return, all arithmetic of the counters",
  "the callers in the repository never repeat a row, so no test reaches these matrices.",
  [DL+":DancingMatrix::solve", DL+":DancingMatrix::add_solution", ND+":Node::cover_column", ND+":Node::uncover_column"])

p("Overflow checks make no difference to dancing links without repeated rows",
  "If no constraint repeats a row, the counters of the headers never leave the range of usize: a build with overflow checks and a build without reach the same states by the same calls of add_solution with the same results, any further call of add_solution or solve has the same outcome in both, and solve returns rows that complete the accepted ones to an exact cover, or NoSolution if there are none, with every node freed. This covers the matrix of the sudoku solver.",
  "all lists of constraints without repeated rows whose lengths and rows are usize values, all histories of add_solution calls, both build modes, every width of usize",
  "a test runs in one build mode only.",
  [DL+":DancingMatrix::solve", DL+":DancingMatrix::add_solution", ND+":Node::cover_column", ND+":Node::uncover_column"])

p("solve_sudoku in a debug and in a release build",
  "solve_sudoku has the same outcome with and without overflow checks, for every slice: the same answer or error, the same memory, undefined behaviour on the same inputs; it never panics and never runs forever, and on puzzles with entries from 0 to 9 it returns a completion in both builds exactly if there is one.",
  "all byte slices, both build modes, targets with a usize of 16 bits or more",
  "a relation between two builds of the program; tests run one of them.",
  [SUD+":solve_sudoku"])

p("create_maze on 16-bit, 32-bit and 64-bit targets",
  "On a target whose usize has ws bytes, create_maze returns exactly when both dimensions are positive and 3*ws*width*height is below 2^(8*ws-1), and then it returns the maze and route a 64-bit target would return for the same draws, so all its properties hold there; in every other case it panics, in both build modes, in particular when width*height wraps around.",
  "all usize dimensions, all random draws, both build modes, ws = 2, 4, 8",
  "tests run on the machine they are built for.",
  [MZ+":create_maze", RB+":recursive_backtrack"])

p("Nonograms on 16-bit, 32-bit and 64-bit targets",
  "On a target whose usize has ws bytes, for puzzles whose vectors stay below isize::MAX bytes, solve_nonogram does exactly what it does on a 64-bit target, panics included, in both builds. With overflow checks parse_nonogram_rules accepts the same texts with the same rules on all targets: those that list numbers whose rules fit the bound. Without them it accepts the texts whose numbers are below 2^(8*ws) and whose rules fit modulo 2^(8*ws), so that a 32-bit target accepts rules a 64-bit target rejects. Texts whose numbers and gaps add up to less than 2^(8*ws) in every rule have the same outcome, errors included, and puzzles accepted for sides below 2^(8*ws-7) the same answer. A number of 2^(8*ws-1) or more always makes the solver panic.",
  "all texts, bounds and rule lists, both build modes, ws = 2, 4, 8",
  "tests run on the machine they are built for.",
  [NG+":parse_nonogram_rules", NG+":solve_nonogram", RL+":RuleMachine"])

p("Printing mazes and nonograms on 32-bit and 64-bit targets",
  "On a 32-bit target print_maze, print_nonogram and print_nonogram_solution do what they do on a 64-bit target, except that they panic when the buffer of the picture would exceed isize::MAX bytes, as long as width*height is below 2^32. When the sides of the picture fit in u32, print_maze returns a picture exactly for grids of width*height cells whose picture fits in memory, and print_nonogram_solution never accepts a grid of the wrong length. When both the number of cells and a side of the picture wrap, a release build for a 32-bit target takes an empty grid for a maze of 2^31 by 2 cells or for a nonogram of 2^31 by 2 squares and succeeds, where a 64-bit target reports InvalidDimensions and a debug build panics.",
  "all u32 dimensions, all grids, rules and images, both build modes, usize of 4 or 8 bytes",
  "tests run on the machine they are built for, and no test has 2^32 cells.",
  [MZ+":print_maze", NG+":print_nonogram", NG+":print_nonogram_solution"])

p("Whole runs on 32-bit and 64-bit targets",
  "When the picture fits in an allocation of the target, create_maze followed by print_maze succeeds on a 32-bit target and gives the perfect maze, the route and the picture that a 64-bit target gives for the same draws. For every nonogram picture without empty lines whose image fits, parsing its written rules, solving, printing the puzzle and printing the answer succeed on the target, and in the final image only filled squares of the picture are painted, all of them if the answer satisfies the rules.",
  "all dimensions and draws, all pictures with sides up to 65535 without empty lines, both build modes, usize of 4 or 8 bytes",
  "tests run on the machine they are built for and sample few pictures.",
  [MZ+":create_maze", MZ+":print_maze", NG+":parse_nonogram_rules", NG+":solve_nonogram", NG+":print_nonogram", NG+":print_nonogram_solution"])

p("The outcome of parse_nonogram_rules on every target",
  "For a usize of any number of bytes, parse_nonogram_rules without overflow checks never panics and returns what the text says, with the length of each rule taken modulo the range of usize: the rules, or InvalidRule with the first field that is no usize literal, or InvalidRuleDimension, whichever rule comes first. With overflow checks it panics exactly when a rule whose running sum or total length leaves usize comes before any rule with an error, and otherwise returns what the text says with exact lengths. When no sum overflows both builds agree. A single number that is too large for the target is reported as InvalidRule with that number. Written rules that fit the bound are read back.",
  "all texts, all bounds, all widths of usize, both build modes",
  "tests run on the machine they are built for; the panic needs sums at the limit of usize.",
  [NG+":parse_nonogram_rules"])

with open(os.path.join(os.path.dirname(__file__), "..", "properties.jsonl"), "w") as f:
    for x in P: f.write(json.dumps(x) + "\n")
print(len(P))
