{
 "C80": {
  "note": "the table for every distribution; the run for every input of C57-C59 at exact and at shipped tolerances; messages and progress bars of -verbose and what is shown before an error are not modelled"
 },
 "C81": {
  "note": "all of msg.py and exhandler; the texts of the help are arguments; argparse is not modelled"
 },
 "C82": {
  "note": "the whole run from the text of lattice.in and of the filter file to the text of enum.out; exact arithmetic with the tolerances as parameters (C82_selected) and with the shipped tolerances (C82_free, C82_ranges); the random search for large systems (more than 100000 arrangements) is excluded"
 },
 "C83": {
  "note": "for every history of stopped calls of -enum (a)-(c); the losses are proved for the stopping points named; files not being written are assumed unharmed by the stop"
 },
 "C84": {
  "note": "every POSCAR and config file over the reals; the readers are in the specification; infinities, NaN and the sign of a zero are not modelled"
 },
 "C85": {
  "note": "every history of stopped calls; a file being written holds a prefix of its text, other files are assumed unharmed by the stop"
 },
 "C86": {
  "note": "exact arithmetic, displace = 0; for displacements see C37 (wrong direction table)"
 },
 "C87": {
  "note": "sizes: at most 7 cells, at most 18 sites in the largest supercell, 2 or 3 species, coordinates with seven decimals; with ranges, without, and with rounding errors up to 1e-10 in enumeration.py; makeStr itself in exact arithmetic up to the decimals it prints"
 },
 "C88": {
  "note": "sizes as in C87; no displacements; species none, one per label, or mapped injectively; makeStr in exact arithmetic up to the decimals it prints"
 },
 "C89": {
  "note": "two or three species, fewer than 12 sites per supercell, sizes from 1, arrow fractions 0 or 1; C89_noise needs the numbers of decorations to be exactly representable (NumbersFit)"
 },
 "C90": {
  "note": "two or three species, fewer than 12 sites per supercell; between the structures that are certainly listed and those that are certainly not (species with a smaller period, displacements in different directions) the result depends on the representative the code meets; C90_noise needs the numbers of displaced atoms to survive the rounding (ArrowsKept) and NumbersFit; C90_ripple_missing is a concrete lattice.in with a missing structure (bug)"
 },
 "C91": {
  "note": "argparse of Python 3.11; the word `--` and the words behind it are part of Spec.Line; int() and float() in the notations of parseInt and parseFloat. The model agrees with argparse itself on 3000 random command lines"
 },
 "C92": {
  "note": "C92_crystals is for lattice.in without restrictions; C92_program connects every other property of -enum with the command line"
 },
 "C93": {
  "note": "'does not run': the program stops with the usage text, or shows the examples; C93_super_ignored, C93_swallowed, C93_documented are defects"
 },
 "C94": {
  "note": "str on floats is an argument: every number of the lattice is written as a word that is read as the same number; reading by enum.x: the specification readEnumX (words of the lines, blank lines skipped)"
 },
 "C95": {
  "note": "C95_subdirectory: names with a directory are also looked for below the directories of PATH, unlike in a shell. Posix paths; PATH is set"
 },
 "C96": {
  "note": "the words of a line as in the output of enum.x: the seventh is the size, twelfth to seventeenth the HNF, the last the labeling"
 },
 "C97": {
  "note": "composition of C91, C92, C87, C88; CanReduce holds for the cubic lattices (cubic_canReduce). Rounding errors are in C87_poscar_files_noise, not here"
 },
 "C98": {
  "note": "C98_same_rows: any call with -enum (any distribution, filter, -acceptrate up to 1), any directory; C98_misread: the defect, for every directory, directory order and random numbers. Exact arithmetic with the tolerances of the code"
 },
 "C99": {
  "note": "Files whose entries count from 1; small requests (Modest), as in C43. C99_displaced: the defect, for every file with a group of the sites"
 },
 "C100": {
  "note": "exact; the table is modelled row by row, writing outside of it would be an error"
 },
 "C101": {
  "note": "the cases without displaced atoms and the failing cases are exact; for one species all atoms displaced and superperiodic structures kept; C101_some: small requests (Modest, group balanced), superperiodic structures kept; the draws are an oracle indexed by branch and hash number, so every execution is covered"
 },
 "C102": {
  "note": "small requests (Modest) for C102_request(_arrows), two or more species; C102_request_single: one species, every atom displaced, at least a thousandth of the structures wanted (less: C102_request_single_random); what has been shown before an error is dropped; floats as text are left open"
 }
}