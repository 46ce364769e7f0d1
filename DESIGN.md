# Design: a Lean 4 model of wsmorgan/phonon-enumeration

## Layout

* `lean/Verif/Py.lean` – Python primitives (errors as values, list indexing that can fail, `//`, `%`, ranges).
* `lean/Verif/Model/*.lean` – the model, function by function, each definition citing `/repo` file and lines.
* `lean/Verif/Spec/*.lean` – small, independent specifications (what an orbit is, what a labelling is, ...).
* `lean/Verif/Proof/*.lean` – helper lemmas.
* `lean/Verif/Props/*.lean` – the property theorems (one section per property id) and non-vacuity examples.

## Trusted base

* Lean 4.33.0's kernel; the axioms `propext`, `Classical.choice`, `Quot.sound` (standard in Lean/Mathlib). No
  other axiom, no compiled-code tactic.
* The reading of the Python source into the model. The Python code is not run.
* Arithmetic: Python ints are `Int`/`Nat`. Floats are modelled by exact integers/rationals; every place where the
  code uses a float is flagged in the comment of the definition. Consequences of rounding are out of scope
  except in C68 (the count), C69 (concentrations), C70 (wrapping into the cell), C71 (points of a supercell) and C72 (number of displaced atoms), which have a second model in which
  every float operation is followed by a rounding `fl`; there the exponent is unbounded (no overflow, no underflow);
  and in C73 (the searches for symmetries; C74 for the program that uses all these), which has a second model in which every number that is compared or rounded has an
  arbitrary error of up to `δ`, different at every place. There the size of `δ` is a hypothesis: that the floating point
  operations of numpy stay within it is not proved. Matrices and vectors that are returned stand for their exact values.
* numpy/itertools/random: modelled by their documented exact behaviour; random draws are an arbitrary oracle
  stream over which theorems quantify.

## Properties: what is modelled and how it is proved

| id | model | proof |
|----|-------|-------|
| C01 | `numerics.binomial_coefficient`, loop with floor division | induction on the loop, partial products are binomials |
| C02 | `factorial`, `multinomial` (64-bit) | loop induction; telescoping product of binomials; each intermediate value is at most the sum times the coefficient, so nothing wraps |
| C03 | `_hash` (index/count loop), one level of `_invhash` | refinement to a recursive rank function; round trip by induction on the list |
| C04 | full `_invhash` over a radix vector | level-by-level refinement: placing colour i in the free sites |
| C05 | `_coefficients` | product telescopes to `Nat.multinomial`-style quotient |
| C06, C07 | `_perm` and `brancher`'s while loop as a step machine with the state of the code (branch, i, b0, order, stabilizers, survivors) | invariant "survivors = canonical vectors below the cursor"; canonical = lexicographically least in its orbit; lexicographic measure for termination |
| C08 | the superperiodic branch of the loop | exact characterisation of what the loop returns; true for <= 3 species; a counterexample with 4 species (the subtree below a superperiodic node is skipped) |
| C09 | subset/count bookkeeping of the loop | same invariant, with filtered output |
| C10 | `_ahash`, `_ainvhash` | base-dim digits |
| C11 | `add_arrows` exhaustive branch | survivors = hash-minimal in their orbit |
| C12 | `brancher` with arrows | C06 + C11 + orbit decomposition by the stabiliser |
| C13, C14 | `polya`, `_group_to_cyclic`, `Product`, `Multinomial`, `Sequence` | Burnside counting on lists; fixed configurations = product over cycles; C18 for the coefficient |
| C15 | combination | C06/C12 with C13/C14 |
| C16 | argument check and re-indexing of `polya` | case analysis |
| C17 | `_group_to_cyclic` | loop invariant: visited = union of complete cycles |
| C18 | `Product.coeff` | coefficient of an `MvPolynomial`; multinomial theorem |
| C19 | `find_all_HNFs` | membership and nodup of nested loops |
| C20 | same | column reduction to lower-triangular form; uniqueness by comparing entries |
| C21, C22, C44 | `_is_equiv_lattice`, `remove_duplicate_lattices`, `_get_sLV_fixing_operations` over exact rationals | equality of column lattices; greedy filter invariant |
| C23, C24 | `SmithNormalForm` with its two inner `while` loops (well-founded recursion) and the 100-iteration guard | loop invariant A*H*B=M, unimodularity; gcd/size measure for termination and success |
| C25, C26 | `get_concs_for_size` | list product; odometer loop refinement |
| C27 | `bring_into_cell`, `cartesian2direct` in lattice coordinates over exact rationals | number of steps to reach the cell |
| C28 | interior point loops of `map_enumStr_to_real_space` | count and injectivity modulo the superlattice; counterexample for negative lower bounds (`int` truncates toward zero) |
| C29 | `_make_member_list`, `_find_permutation_of_group`, translation permutations | mixed-radix counter |
| C30, C31 | formatting and splitting of rows as character lists | decimal round trip + padding lemmas; counterexamples when fields run together |
| C32 | `create_labeling` and the digit-wise readers | round trip for <= 10 species; counterexample for 11 |
| C33, C34 | `_distribute` with an oracle for `random()` | sum of limits; counterexample to "exactly n" |
| C35 | `guess_and_check_brancher` with an oracle | counterexample; distinctness as the part that holds |
| C36 | `group`, `_group`, `a_group` | closure under generators, reachability; counterexample for a single generator |
| C37, C38 | direction tables and atom loop of `write_POSCAR`, `write_config` | counterexamples; counts by permutation of sites |
| C39 | Gaussian reduction, reduction of C, Minkowski reduction, over the reals | unimodular steps; for the limits: the corner chosen by the reduction of C is the closest lattice point up to the tolerance (Voronoi cell of a reduced pair), so the final check cannot fail; the steps of the Gaussian reduction shrink the shorter vector by a fixed factor; for the cubic lattices the reduction is simulated in integer arithmetic, the simulation is proved to agree with the code for every scale factor and is evaluated by the kernel on all supercells of up to seven cells |
| C40 | `arrow_concs`, `_col_sort`, `how_many_arrows`, `_find_concentrations`, `_color_list` | list induction |
| C41 | argument handling in `phenumStr.run` | case analysis; counterexample ("f" is truthy) |
| C42 | `get_lattice_parameter` | weighted mean |
| C43 | decision logic of `enum_sys` | counterexamples (`super` is always truthy; `subset` unbound) |
| C45 | `get_lattice_pointGroup` over an ordered field with the search box given by exact bounds | Cramer/Cauchy-Schwarz bound on the coefficients |
| C46 | `_get_rotation_perms_lists` for one HNF | the table search computes the permutation induced by the motion; induced permutations compose |
| C47 | `get_spaceGroup` | exactness of the search over the images of the first atom |
| C48 | `brancher` with arrows and `supers=False` | exact characterisation of the output; exactly one per primitive orbit if every species is all/none displaced; counterexamples otherwise (`add_arrows` tests superperiodicity without looking where the arrows sit) |
| C49 | text of polya.out as written by `_polya_out`, reading in `_distribution_summary` | round trip of padded fields, under the column widths |
| C50 | sorting and numbering loop of `_enum_out` | permutation + sortedness + counters |
| C51 | `read_enum_out`, `map_enumStr_to_real_space`, `write_POSCAR`, composed | C28 + C31 + C38 |
| C52 | output file name of `makeStr` | injectivity of the formatted number |
| C53 | `get_sym_group` with all the functions it calls | C45 + C47 + C44 + C46 composed; one threshold for the tolerance from finiteness; counterexample: a single atom off the origin makes the call exit |
| C54 | `get_HNFs`, `remove_duplicate_lattices` with degeneracies | C22 + C44 + C47 composed; the degeneracies add up to the number of Hermite normal forms because the classes partition them |
| C55 | `_rm_3D_operations` and the LatDim = 2 branch | exact characterisation; IndexError in the drivers proved |
| C56 | `get_HNFs`, `get_sym_group`, `polya`, `enum_sys` composed | real-space structures (superlattice + periodic decoration) are transported to labelings; C53 + C54 + C13 + C43 (+ C08 for primitive structures) |
| C57 | the drivers `_polya_out`, `_enum_in`, `make_enum_in`, `_enum_out`, `_script_enum` over a directory (names and contents), the listing order and random draws as oracles | equational reasoning about the failing-or-not runs; frame lemmas for the files written |
| C58 | the whole program from the text of lattice.in to the rows of enum.out | C59 + C25/C26 + C54 + C53 + C13 + C49 + C30 + C43 + C50 + C56 composed; a bound on the counts shows that they fit the columns |
| C59 | `read_lattice` on characters | round trip; lemma on the filter of comment lines |
| C60 | the same drivers | inversion of a supposed success |
| C61 | the whole program called without `-super`: the rows describe exactly the structures without a smaller period | as C58 with `C43_request_super` and `primitive_once`; the periods of a decoration form a lattice with an integer basis (subgroups of Z^3 are free), its index divides that of the given superlattice, and a symmetry between decorations maps their period lattices to each other |
| C62 | both programs one after the other, through the text of enum.out: `scriptEnum`, then `makeStr` on the file it wrote | C61 with C50/C51/C52: the rows fit their columns and are mapped to real space completely (for supercells of at most seven cells this is evaluated in the kernel for all 235 Hermite normal forms; it is false for eight cells, see C28), numbers with seven decimals are read back exactly, fewer than 10^11 rows by counting; a POSCAR and the row it is made from determine the same decoration |
| C63 | the same programs at the tolerances written in the code (`Spec.shippedTol`); the searches are exact at a tolerance (`FineTol`, `ExactTol`) when it meets explicit inequalities (`Spec.Coarse`) | every theorem of the form "for all small tolerances" is proved at one tolerance with a condition (`..._at`); scalar products that are multiples of 1/g differ by at least 1/g, and vectors on a grid of lattice coordinates 1/D are equal or apart, so the conditions follow from the inequalities; a tetragonal lattice with nearly equal edges as counterexample |
| C64 | `HNF_shapes`, `HNF_atoms` and `_plot_HNFs` (Model/Visualize): the figure as the list of the lines and of the atoms drawn, and its file name; colours, sizes and the interactive window are left out | the cell and the atoms by C28 and C27; the lines by comparing the list of the code with the pairs of corners; the file by C30's line format; the failures by explicit inputs or for all inputs with two or more atoms |
| C65 | `_enum_in`/`make_enum_in` with a filter: the text of the filter file as written by `_print_distribution`, read by `readFilter`, applied in `_distribution` | the lines are split back; `available` of a type with the filter is 0 or the number without it; C33 for the full distribution |
| C66 | `read_group` (Model/LatticeIn) on the text of the file | induction over the lines |
| C67 | `write_config` with `configSpecies` | C38 and C42; sums over labels with multiplicity are sums over atoms; one atom of Al/Ni as counterexample |
| C68 | `polya` and the classes below it once more (Model/PolyaFloat) with Python's ints and floats; every float operation is followed by an arbitrary rounding `fl` | the intermediate results are natural numbers; each is at most the number of all configurations times the sites (coefficientwise comparison of the products with the power of the one-site polynomial), so nothing is rounded; the limit by evaluation in double precision |
| C69 | `get_concs_for_size` with restrictions once more (Model/Concs, `concsRestrictedF`), every float operation rounded by an arbitrary `fl` with relative error at most 2^-53; `fl53` (round to 53 bits, ties to even) is proved to have it | the odometer loop proof is generic in the test; the table is off by less than 1/2, so it still covers the range; the tolerance absorbs the rounding of the test and is smaller than the gap 1/(n d) between different fractions |
| C70 | the loops of `bring_into_cell` and `cartesian2direct` with rounding (Model/CellFloat); doubles are the numbers m*2^e with abs(m) <= 2^53 (Spec/Double), `fl` any rounding to a nearest double; the lattice coordinates the loops start from are arbitrary doubles up to 2^53 | subtracting 1 from a double between 1/2 and 2^53 is exact, so only the last addition of 1 is rounded; invariants for both directions; examples by evaluation of `fl53` |
| C71 | the limits of the three loops of `map_enumStr_to_real_space` and the concentrations with rounding (Model/RealSpaceFloat); positions and cell stay exact | the error of a limit is at most 12 f 2^-53, less than the distance 1/(a c) of a non-integer limit from the integers; integer limits: nothing is rounded when the parts are dyadic; all 344 remaining supercells of at most 35 cells (every one of them, in a finite domain) by evaluation of `fl53` in the kernel; counterexamples by evaluation |
| C72 | `arrow_concs` with the product rounded and the fraction the nearest double of p/q (Model/DecorateFloat) | reduction to C40 with the fraction that gives the same count; error of the product at most 2 n 2^-53 < 1/q; in the integer case p/10^k = m/n with n <= 49, whose denominators are all checked in the kernel |
| C73 | `get_lattice_pointGroup`, `get_spaceGroup`, `get_HNFs`, `get_sym_group` and all they call once more (Model/Noise, line by line after the exact models): a call is the set of its possible results, every compared or rounded number has an arbitrary error of up to `δ` | every comparison is settled: the exact values have a gap (orthogonality defects and norms: scalar products are multiples of 1/g; coordinates: multiples of 1/D; superlattices: multiples of 1/n), so a value within `δ` decides like the exact one; relation `Settled` through the monad; the wrapping loop by an invariant. The hexagonal exit by an explicit choice of errors |
| C74 | the drivers `polya_out`, `enum_in`, `enum_out` and the script once more (Model/DriversFloat), with the floating point models of C68, C69, C72 and the noisy models of C73 in place of the exact ones | the result of each part does not depend on the errors: for the counts C68 (the bound of the number of decorations), for the compositions C69 for tolerance 1E-10 (the order of the list is the same because both are sorted), for the arrows a hypothesis `ArrowsKept` proved for decimal fractions, for the symmetries C73; then the relation `Follows` through the drivers, and C63 for what the exact output contains |
| C75 | the same drivers as C57/C58, the call with `-distribution all N` (`NumberCall`) | the tables written by the run are consistent (`tables_facts`), so that the distribution is that of C33/C34; the requests are written and read back (C30); each system delivers part of a list of representatives (C43, `cell_request`, `extend_transversal`), and these lists together are the full list of C58 (`rows_once`). `C75_crash`: with shares below one and random numbers close to one nothing is requested, and the program stops with NameError |
| C76 | `_distribute` in floats (`distributeF`, Model/StructuresFloat.lean): each operation of a share rounded | the error of a share is at most n/2^51; the order of the shares is that of the counts; a random number away from the multiples of 1/total falls on the same side; the loops with an arbitrary counting function (`passLoopG`) satisfy the bounds |
| C77 | the driver of C74 with `-distribution all N`: `makeEnumInF` (Model/DriversFloat.lean) uses `distributeF` of C76 | the tables do not depend on the errors (C74), so the requests are those of C76 for the true counts; each branch of `_enum_out` reduces to the exact driver of C75 run on these requests |
| C78 | as C61–C63 and C74, for a lattice.in with ranges of concentrations and the default call; specification `Spec.AllowedCrystal` (periodic, undisplaced, fractions of the species counted in some cell of a superlattice lie in the ranges) | C61 for any list of compositions (`crystals_rows`); the numbers of atoms counted in a superlattice of the period lattice are a common multiple of those in the period lattice (`count_scale`, a double count of the sites), so the fractions do not depend on the cell; C62 for any set of rows (`poscars_of_rows`); C74 for the rounding errors |
| C79 | as C62, C74 and C78, with `species` given to makeStr; specification `Spec.PoscarOf` (named atoms repeated with the cell, mean of the elemental lattice parameters over the atoms, heading) and `Spec.OneNamedPoscarEach` | the rows of C61/C78; `Describes` (C51) extended by the numbers of the heading; C42 for names and scale; different names let the decoration be read back from the file. `C61_nothing_else`: without restrictions each row describes a crystal of the kind asked for |
| C80 | `_print_distribution` (screen part), `arb`, `printer`, `make_enum_in`, `_polya_out`, `_enum_in`, `_enum_out`, `_script_enum` with the pieces of text they write (Model/Screen.lean); specification `Spec.shownCells` (text cut at line breaks and bars), `Spec.rowCells`, `Spec.ShownBefore`, `Spec.NumbersShown`, `Spec.RunShows` | the fields contain neither bars nor line breaks, so the cells can be read back (`distLine_split`); the groups of `bysize` partition the distribution, and sorting groups and lines gives the order; the run is that of the other properties (`C80_same_run`), its tables are those of C75, its numbers those of C33/C34; the lines about lattice.in: `C80_heading_polya`, `C80_heading_enum`, `C80_heading_both`, `C80_heading_fresh` |
| C81 | msg.py, `exhandler` and the `__main__` parts (Model/Screen.lean); the texts of the help are arguments | case distinctions over the settings; induction over the parts of a line and over the examples |
| C82 | `-sizes` and `-filter` of the whole program (Model/Drivers.lean: `scriptEnum`, `makeEnumIn`, `sizesUsed`, `readRestrict`), all parts as in C75 | the entries of the tables that pass are those of the filtered list (C65); the loop of C75 on the selected requests lists exactly the structures with the selected type; structures that are the same up to a symmetry have the same size, composition and representative |
| C83 | where a run of `_polya_out`, `_enum_in`, `make_enum_in`, `_enum_out`, `_script_enum` can be stopped and what is then in the directory (Model/Crash.lean: files are opened empty and hold a prefix of their text until closed; if the computation of a table does not end any text may be in it; files not being written survive); specification `Spec.History` (any number of calls, each stopped anywhere), `Spec.RunLosesSizes` | invariant over histories: the directory is the original one plus tables of an initial range of sizes plus enum.in and enum.out (`LeftOver`); starting over and resuming from it; the run on the tables or requests that are left from C75/C82 |
| C84 | text of `write_POSCAR`, `write_config` and the titles of `get_lattice_parameter` (Model/PoscarText.lean; `{:.8f}` rounds the exact value, halves to even); specification: readers `readPoscarText`, `readConfigText` of the two formats, `Rounded` | the text is a list of lines without line breaks, each line is cut into words, each number is parsed back; names by the uniqueness of line breaks and underscores |
| C85 | `_make_structures` and `run` on a directory (`makeStrDir`), and where they can be stopped (`makeStrStops`); specification `MakeHistory` | induction on the structures and on histories: which files differ, and that the rest of the run does not depend on them |
| C86 | `run` with `-config t` composed with `read_enum_out`, `map_enumStr_to_real_space`, `cartesian2direct`, `write_config` | C28 + C27 + C38, as C51 |
| C87 | `_script_enum` followed by `run` of makeStr, on the directory | C79 + C85 (`C85_written`) |
| C88 | `_script_enum` followed by `run` of makeStr with `-config t`, on the directory | C74 + C86 + C85 (`C85_config_file`); one config per crystal from the rows of C69 |
| C89 | `_script_enum` without `-super`, displaced species | C48 for requests of all structures (`one_per_orbit_nosub`, `whole_request`), then the argument of C61/C78; the arrows of a structure are displacements along the axes |
| C90 | `_script_enum` without `-super`, any fractions of displaced atoms | C48 for both halves: the branches deliver the orbit representatives that pass the code's test (`part_per_orbit`); a representative whose species have no smaller period always passes (`primitive_iff` for the species alone), one whose displacements are all in one direction and whose species have a smaller period never does; then the argument of C61/C78 |
| C91 | `exhandler`, `_parser_options`, `script_options` of both programs, with argparse's `parse_known_args` | Model/CommandLine.lean: classification of the words, values of the options, the two passes (common parser, parser of the program). A line of options, abbreviations, joined values, unknown words and loose values is given by an inductive specification (`Spec.Line`); induction on it gives what is found (`C91_reading`), hence that order, spelling and unknown words don't matter (`C91_same`, `C91_same_make`) and what every option means (`C91_enum`, `C91_make`; the last occurrence counts, `C91_last`); a `--` ends the options |
| C92 | the same, followed by `_script_enum` | every line with the options -enum, -lattice, -super is a `PlainCall` (`C92_call`), so that C61 holds from the words of the command line to enum.out (`C92_crystals`) |
| C93 | the same, for words that are not understood | insertion of an unknown word with its values doesn't change what the line means (`C93_unknown`); ambiguous abbreviations, missing values, values that are not numbers (`C93_bad_value`) and structure numbers swallowed by an option stop the programs; makeStr after `enumeration.py -enum` doesn't find its input |
| C94 | `write_struct_enum` on the parameters of `read_lattice` (Model/StructEnum.lean); `str` on floats is an argument; specification: reader `readEnumX` of the format of enum.x | the text is a list of lines; their words are those of the numbers (induction over the vectors, sites, species, sizes) |
| C95 | `which`, with `os.path.split` and `os.path.join`; the executable files are an argument | split of PATH at the colons, first element of a list |
| C96 | `_read_struct_enum` with its nested dictionaries | induction over the lines: what one line changes in every entry |
| C97 | both programs run one after the other on their command lines, over the directory | composition of C92 (first line), C91 (second line: whatever its form, the values of the options are those written, -mink and -remove_zeros are always true as Python strings) with C87 and C88 |
| C98 | lattice.in with basis vectors outside of the cell | for two lattice.in files with basis vectors that differ by lattice vectors every step of the run is the same (`bring_into_cell` gives the same vectors; induction over sizes, systems and steps of the directory): the same rows in every call, and with C61 what they mean; the defect `C98_misread` for an orthorhombic crystal whose symmetries are computed by hand: with the vectors in the first lines of enum.out two rows describe the same crystal |
| C99 | a request with the group read from a file (`enum_sys` with a file name) | for a file in the format of enum.x with a group of the sites, no displaced atoms: the ops made of the file (with `[0]` for the displacements) are put into C43 (`C99_request`, `C99_request_super`); the defect `C99_displaced`: for one species with displaced atoms the operations `[0]` give the number 1 for any group (C14 with one direction) and the second candidate raises IndexError |
| C100 | the class `Sequence`: `expand`, `kidcount`, `expand_noappend` | `expand` lists each relevant sequence of exponents once (induction over the variables); for two or more variables `kidcount` is their number and `expand_noappend` fills the rows of a table with them (invariant: the rows of one kid are a block of the table, the columns to the left are not touched); for one variable it raises ValueError |
| C101 | an acceptance rate (`-acceptrate`, `accept` of `enum_sys`) | `C101_no_effect`: the loop of `brancher` with a list of ordinals and no arrows is the same loop with and without a rate (invariant: the subset stays a list); `C101_program(_small)`: the same for `enum.x -enum` on an existing file of systems; the defect `C101_nothing(_arrows)`: for an int subset the loop condition is false at once; `C101_displaced`: `add_arrows` run on the accepted hash numbers only; `C101_some`: two or more species with displaced atoms, by a simulation of the run by the one without rate and subset (`pyWhile_sim`): the run stops not later and its survivors are a sublist |
| C102 | the warnings (messages of level 0) | the functions are modelled again with what they show (Model/Warnings.lean) and proved to compute the same (`C102_same`); `C102_request(_arrows,_single,_single_random)`: composed with C43 and C13/C15, the warning is shown exactly when fewer structures are returned than wanted; the defects `C102_super_silent`, `C102_large_silent`, `C102_distribution_short`, `C102_outside`; `C102_distribution` is a full description, `C102_outside_array` too |

## What exactly is modelled

Line numbers are in the comment of each definition. "exact" means that the definition follows the statements of the
function one by one on exact numbers.

| file | modelled | not modelled |
|------|----------|--------------|
| numerics.py | all functions, exact; `multinomial` in 64-bit integers with wrap-around (`np.sum`, `np.prod`) | |
| tree.py | all functions, exact (random draws: oracle) | progress messages |
| phonons.py | all functions, exact (random draws: oracle); `enum_sys` from the group on and with a file (entries from 1 on); the warning of `enum_sys` | |
| polyaburnside.py | `Sequence` (also `kidcount`, `expand_noappend`), `Product`, `Multinomial`, `group`, `_group_to_cyclic`, `polya`, with exact numbers and with floats | `__str__`, debug output |
| HNFs.py | all functions over the reals with tolerance `eps` | float rounding |
| symmetry.py | all functions over the reals with tolerance `eps`; `get_concs_for_size` and the loop of `bring_into_cell` also with rounding | float rounding elsewhere |
| grouptheory.py | all functions | |
| structures.py | `_distribute`, `_distribution`, `_distribution_summary`, `_print_distribution`, `make_enum_in`, `_read_struct_enum` | |
| io_utils.py | `read_enum`, `write_enum` row format, `create_labeling`, `read_enum_out`, `write_POSCAR` and `write_config` with their text, `read_lattice`, `read_group`, `write_struct_enum`, `which` | |
| vector_utils.py | all functions over exact ordered fields; the loop of `cartesian2direct` also with rounding | float rounding elsewhere |
| element_data.py | all, with the table of lattice parameters | |
| phenumStr.py | `run`, `_make_structures`, `RepresentsInt`, the command line (Model/CommandLine.lean), the end of the program | the usage text of argparse |
| enumeration.py | `_polya_out`, `_enum_in`, `_enum_out`, `_script_enum`, `_plot_HNFs` on a directory, also stopped at any moment (Model/Crash.lean); what is shown on the screen without -verbose; the command line (Model/CommandLine.lean) | the usage text of argparse, the texts of the help, other messages and progress bars of -verbose (the warnings are modelled function by function, C102), what is shown before an error, -profile |
| visualize.py | `HNF_shapes`, `HNF_atoms`, `_convert_read_lat_to_system_dat`: the lines and atoms drawn, the file names | colours, sizes, scale, interactive window |
| base.py, msg.py | all functions of msg.py, `exhandler` (Model/Screen.lean), `_common_parser` (Model/CommandLine.lean) | `deprecated`, escape codes of the colours |

Tolerances. Functions that compare floats with a tolerance are modelled over the reals (or an ordered field) with the
tolerance as an argument `eps`. The theorems hold for every tolerance below a positive bound depending on the crystal
(`∃ e > 0, ∀ eps, 0 < eps → eps < e → ...`); the code's constants are 1E-10 and 1E-3 for some arguments. Rounding errors of floats are modelled in C68 to C74 only.

Errors and non-termination. `Py α` is a result or a Python exception; loops that may run for ever are modelled by
partial iteration (`none` = does not terminate), and theorems say when the result is `some`.

## Findings

Where the code does not have the property a user would expect, the property is stated as it holds and the failure is
proved (a negation or counterexample theorem beside it). The main ones:

* C08/C48: with four or more species (or partially displaced species) primitive structures are lost when superperiodic
  structures are removed.
* C02: `multinomial` overflows: for 28 and 34 atoms it is negative, so such a request is not recognised as too large and is searched
  exhaustively.
* C68: the count is wrong for larger systems because of rounding (27 and 28 atoms on 55 sites: one too small).
* C69: with (sites)*(denominator) above 10^10 the tolerance 1E-10 admits compositions outside the ranges.
* C70: `cartesian2direct` runs for ever for the direct coordinate 0.999 with tolerance 1E-3 (and 1.0-1E-10 with 1E-10), because of rounding;
  `bring_into_cell` can meet its guard for the same reason.
* C71: `map_enumStr_to_real_space` in double precision, from 36 cells on: supercell (2,5,6,1,2,3) is refused although exact arithmetic returns; for (2,5,7,0,2,3) two returned atoms coincide and one site is without an atom, without any message;
* C72: of 50 atoms with displaced fraction 0.58, `arrow_concs` displaces 28, not 29 (rounding; never with fewer atoms and decimal fractions);
* C73: `get_sym_group` without arrows rounds the images of the arrow directions and exits if more than one is not found; for hexagonal lattices (entries 1/2) this depends on the last bit: with errors, however small, it may exit although exact arithmetic succeeds.
* C43: a request is silently answered with a different number (wanted = 0, wanted > total, total >= 10^6); the check
  `not super` tests the builtin; `subset` can be unbound; one species with a fraction of displaced atoms gets one
  arrangement of displaced sites only.
* C53: a single atom that is not at a lattice point makes `get_sym_group` exit in cubic crystals (the transposed rotation
  is applied to the basis, with the shift of the rotation itself).
* C55: LatDim = 2 raises IndexError.
* C28: loop bounds are truncated toward zero, some HNFs are refused.
* C31/C32/C49: fixed-width columns run together; more than ten species are ambiguous.
* C33/C34: a distribution over or under-shoots the number asked for.
* C75: a run that asks for few structures (`-enum -distribution all 1`) may stop with NameError (`sortenum` unbound), depending on the random numbers; with 0 it always does.
* C81: warnings (a missing enum.in, more structures requested than there are, an atom outside the cell) are never shown without -verbose; `-examples` ends with a TypeError (enumeration.py) or ValueError (makeStr); the description of `set_quiet` is wrong; `set_verbosity(False)` switches warnings on.
* C82: `-sizes A B` with a size that lattice.in does not have ends with a ValueError although the polya.out files of the other sizes have been written (`C82_missing_size`); a selection without structures ends with a NameError, not a message (`C82_nothing`); a shape in the filter file that is equivalent to, but not equal to, the HNF chosen in polya.out selects nothing.
* C83: a run of `-enum` that is stopped while it counts, and then repeated, uses the tables that are there: it ends without any message and enum.out lists only the sizes counted so far (`C83_lost_sizes`), or only the requests that had been written to enum.in (`C83_cut_requests`); a table that has been opened and not written makes every later run stop with an IndexError (`C83_opened_table`). Starting over with `-polya` after deleting enum.in and enum.out, and resuming after enum.in is complete, are safe (`C83_start_over`, `C83_resume`).
* C84: the names of structures in a config file contain the number twice unless the title contains `Random` or a colon (`C84_config_number_twice`).
* C85: `-config t` appends: a second call doubles the file (`C85_config_twice`), and after a call stopped in the middle of a structure the repeated call leaves a file that cannot be read, without an error (`C85_config_damaged`). POSCARs are safe (`C85_poscar_stopped`).
* C90: with a part of the atoms of a species displaced the default call never lists a structure whose species alone have a smaller period and whose displaced atoms all move in the same direction, although it has no smaller period and polya.out counts it (`C90_ripple_missing`: a simple cubic crystal with every second layer displaced).
* C93: options that the programs don't know, such as `--super` or a misspelt `-supper`, are ignored without a message (`parse_known_args`), with all the values behind them: `enumeration.py -enum --super` leaves the superperiodic structures out. The first parser of `exhandler` also reads the abbreviations of its own options, so that `-e` shows the examples.
* C93: makeStr reads struct_enum.out unless `-input` is given, while enumeration.py writes enum.out and the documentation calls `enumeration.py -enum` and `makeStr.py 10` one after the other: the second call ends with an IOError. Structure numbers behind `-species Al Cu` are taken for elements, and the program stops with the usage text.
* C94: `write_struct_enum` doesn't write the restrictions of the concentrations, nor the displacements (`C94_forgets`).
* C95: `which("bin/enum.x")` also searches below the directories of PATH (`C95_subdirectory`).
* C35: random sampling may run for ever; its uniqueness check never fires.
* C36: `_group` returns nothing for one generator, and leaves the group for paired operations.
* C37: displaced atoms move along another axis than the enumerated arrow says.
* C39: the Gaussian reduction gives up after ten steps.
* C41: `-mink f` and `-remove_zeros f` have no effect.
* C42: "Pb" is missing from the table of elements.
* C59: a blank line in lattice.in raises IndexError, two blanks between the sizes ValueError.
* C60: `-distribution size` and unsaved distributions with -enum cannot succeed; `-sizes` excludes the second size; `-polya -enum`
  write the structures to polya.out; old tables are used although the lattice file has changed.
* C52: a pattern with `{{}}` overwrites its files.
* C64: `-visualize` uses the matrix of the lattice vectors transposed, stops with IndexError for two or more atoms per parent cell, gives two
  figures the same name from twelve cells on, and stops with TypeError without `-input`. (Not formalised: `-shapes` is documented to leave
  the atoms out but draws them.)
* C65: `-filter conc` selects nothing for three or more species.
* C65: when nothing passes the filter `-distribution size` stops with a ZeroDivisionError (`C65_nothing_left`), `-distribution all` writes an empty enum.in.
* C76: in double precision 50 of 58 + 42 structures may become 49 (`C76_whole_share_lost`).
* C98: a basis vector of lattice.in outside of the cell is brought into it before the atoms are numbered, but the first lines of enum.out give it as in
  lattice.in: makeStr.py builds structures with that atom in the wrong cell, some twice and others never (`C98_misread`).
* C99: a group read from a file is given the permutation `[0]` for the displacements: requests with displaced atoms of one species report one structure for
  any group and raise IndexError as soon as two structures are asked for (`C99_displaced`).
* C100: `kidcount` is 0 for a sequence of one variable although `expand` lists one, so `expand_noappend` raises ValueError ("This can't happen!") there.
* C101: an acceptance rate, meant for large enumerations, makes `brancher` return no structure at all exactly there (a million or more structures, a proper part wanted): the loop condition reads `len(survivors) == subset` where `<` is meant. Everywhere else, without displaced atoms and with two species, it is ignored.
* C102: the warning that the limit of the loop in `_distribute` was reached can never be shown (`recount == 3` is tested after a loop that ends with 4 if it falls short), so that falling short is silent; the warning that "should not be possible" is possible; the warning of an atom outside of the cell is never shown for the lists of lattice.in (the loop variable still holds the old vector), only for two-dimensional arrays; with superperiodic structures left out, or for a small sample of a large system, fewer structures than wanted come without a warning.
* With `-verbose` the enumeration, the sampling and a large `brancher` or `add_arrows` run import `tqdm`, which is not in `install_requires`: without that package `enum.x -enum -verbose` ends in ImportError (not modelled; the progress bars are not part of the model).
* C67: a mapping with as many entries as species is not applied to the lattice parameter in a config file.
* C63: two edges that differ by less than the tolerance give a point group with a matrix that is not orthogonal.

Not formalised: hexagonal lattices with arrows (halves are rounded to even, so 60 degree turns act like 90 degree ones);
`make_enum_in` reads every polya.out.* file present, in directory order.
