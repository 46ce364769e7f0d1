{"id": "C01", "title": "Binomial coefficients are exact", "statement": "binomial_coefficient(n,k) returns the number of k-element subsets of an n-element set for 0<=k<=n and 0 otherwise; every intermediate floor division is exact.", "quantifier": "all integers n and k, including negative", "why_tests_cant": "The domain is infinite; tests sample a handful of values.", "anchors": ["phenum/numerics.py:binomial_coefficient", "phenum/polyaburnside.py:Multinomial.nchoosek"]}
{"id": "C02", "title": "Factorial and multinomial are exact", "statement": "factorial(m) returns m! for m>=0. multinomial(ns) computes with 64-bit integers; it returns (sum ns)!/prod(n_i!) for every non-empty list of non-negative integers for which that number times sum ns is below 2^63, in particular for all lists with a sum up to 20; an empty list is rejected. Beyond that it can be wrong: for (28, 34) the result is negative.", "quantifier": "all natural numbers and all lists of naturals", "why_tests_cant": "The domain is infinite; tests sample a handful of values.", "anchors": ["phenum/numerics.py:factorial", "phenum/numerics.py:multinomial"]}
{"id": "C03", "title": "Numbering a two-colour labelling and decoding the number are inverse", "statement": "For a 0/1 labelling with at least one 1, the hash is smaller than C(m,k) and decoding that number gives the labelling back; conversely every number below C(m,k) decodes to a labelling with exactly k ones whose hash is that number. A labelling without a 1 is rejected.", "quantifier": "all lengths, all 0/1 labellings, all hash numbers in range", "why_tests_cant": "The domain is infinite; tests sample a handful of values.", "anchors": ["phenum/tree.py:_hash", "phenum/tree.py:_invhash"]}
{"id": "C04", "title": "Multi-colour numbering is a bijection", "statement": "For any list of positive concentrations summing to n, decoding maps the mixed-radix vectors below the radix numbers one-to-one onto the labellings of n sites with exactly those concentrations, and re-encoding level by level returns the same vector.", "quantifier": "all concentration lists, all mixed-radix vectors, all labellings", "why_tests_cant": "The domain is infinite; tests sample a handful of values.", "anchors": ["phenum/tree.py:_coefficients", "phenum/tree.py:_invhash", "phenum/tree.py:_hash"]}
{"id": "C05", "title": "The radix numbers multiply to the number of labellings", "statement": "The product of the radix numbers for concentrations summing to n is n!/prod(c_i!), the total number of labellings.", "quantifier": "all concentration lists", "why_tests_cant": "The domain is infinite; tests sample a handful of values.", "anchors": ["phenum/tree.py:_coefficients", "phenum/numerics.py:multinomial"]}
{"id": "C06", "title": "Tree search is exhaustive and irredundant", "statement": "brancher with superperiodic structures kept and no arrows returns, for every permutation group and all positive concentrations, a list containing exactly one labelling from each symmetry orbit of labellings with those concentrations.", "quantifier": "all site counts, all permutation groups, all positive concentration lists with any number of species", "why_tests_cant": "Ranges over all finite permutation groups, all concentrations and all colourings; the number of cases is infinite and grows super-exponentially.", "anchors": ["phenum/tree.py:brancher", "phenum/tree.py:_perm"]}
{"id": "C07", "title": "Tree search always terminates without error", "statement": "brancher on a valid group and positive concentrations stops after finitely many steps and never raises an IndexError, KeyError or ValueError.", "quantifier": "all permutation groups and positive concentration lists", "why_tests_cant": "Termination is a statement about every run of an unbounded loop.", "anchors": ["phenum/tree.py:brancher", "phenum/tree.py:_perm"]}
{"id": "C08", "title": "Superperiodic filtering: what it keeps, and what it loses with four or more species", "statement": "With supers=False and no arrows, brancher returns pairwise inequivalent labellings none of which is fixed by a non-trivial lattice translation. For at most three species it returns exactly one of each orbit of such labellings; for any number of species it returns exactly one of each orbit unless a superperiodic labelling has the first two species in the same places as a member of the orbit. For four species orbits that are not superperiodic can be missing (refuting the unrestricted claim).", "quantifier": "all groups whose first entries are the translations, all positive concentration lists, any number of species", "why_tests_cant": "Ranges over all finite permutation groups, all concentrations and all colourings; the number of cases is infinite and grows super-exponentially.", "anchors": ["phenum/tree.py:brancher"]}
{"id": "C09", "title": "Subset selection picks exactly the requested ordinals", "statement": "With superperiodic structures kept, brancher called with a list of ordinals returns precisely the structures that the full enumeration lists at those (1-based) positions, in order, and no others.", "quantifier": "all groups, concentrations and ordinal lists", "why_tests_cant": "Ranges over all finite permutation groups, all concentrations and all colourings; the number of cases is infinite and grows super-exponentially.", "anchors": ["phenum/tree.py:brancher"]}
{"id": "C10", "title": "Arrow numbering is a bijection", "statement": "Encoding arrow directions as a base-dim number and decoding are mutually inverse for every number of arrows, and numbers run over 0..dim^k-1.", "quantifier": "all dim>=1, all arrow lists", "why_tests_cant": "The domain is infinite; tests sample a handful of values.", "anchors": ["phenum/phonons.py:_ahash", "phenum/phonons.py:_ainvhash"]}
{"id": "C11", "title": "Arrow enumeration is exhaustive and irredundant", "statement": "add_arrows (exhaustive mode, superperiodic kept, no acceptance rate, no limit) returns exactly one arrow assignment from each orbit under the supplied stabiliser operations.", "quantifier": "all colourings, all groups of paired site/arrow permutations fixing the colouring, all dim", "why_tests_cant": "Ranges over all finite permutation groups, all concentrations and all colourings; the number of cases is infinite and grows super-exponentially.", "anchors": ["phenum/phonons.py:add_arrows"]}
{"id": "C12", "title": "Combined colour+arrow enumeration is exhaustive and irredundant", "statement": "brancher on decorations with arrows (superperiodic kept) returns exactly one representative of each orbit of colour+arrow configurations under the full paired group.", "quantifier": "all paired permutation groups, concentrations and arrow species", "why_tests_cant": "Ranges over all finite permutation groups, all concentrations and all colourings; the number of cases is infinite and grows super-exponentially.", "anchors": ["phenum/tree.py:brancher", "phenum/phonons.py:add_arrows"]}
{"id": "C13", "title": "Polya number without arrows is the number of orbits", "statement": "polya(concs, group) returns the number of symmetry-inequivalent labellings with those concentrations (at least one site).", "quantifier": "all permutation groups, all concentration lists (zeros allowed) summing to the number of sites", "why_tests_cant": "Ranges over all finite permutation groups, all concentrations and all colourings; the number of cases is infinite and grows super-exponentially.", "anchors": ["phenum/polyaburnside.py:polya", "phenum/polyaburnside.py:_group_to_cyclic", "phenum/polyaburnside.py:Product.coeff"]}
{"id": "C14", "title": "Polya number with arrows is the number of decorated orbits", "statement": "polya(concs, group, arrowings) returns the number of inequivalent labellings in which the sites of the last `arrowings` colours additionally carry an arrow direction permuted by the group.", "quantifier": "all paired groups, concentration lists, arrow counts", "why_tests_cant": "Ranges over all finite permutation groups, all concentrations and all colourings; the number of cases is infinite and grows super-exponentially.", "anchors": ["phenum/polyaburnside.py:polya", "phenum/polyaburnside.py:Multinomial.nchoosekm"]}
{"id": "C15", "title": "Predicted count equals enumerated count", "statement": "For every valid group and positive concentrations, the number returned by polya equals the number of structures brancher returns when superperiodic structures are kept (with and without arrows).", "quantifier": "all groups and concentrations", "why_tests_cant": "Ranges over all finite permutation groups, all concentrations and all colourings; the number of cases is infinite and grows super-exponentially.", "anchors": ["phenum/polyaburnside.py:polya", "phenum/tree.py:brancher", "phenum/phonons.py:enum_sys"]}
{"id": "C16", "title": "Polya rejects inconsistent input and accepts both index bases", "statement": "polya raises ValueError exactly when the concentrations do not sum to the number of sites, and gives the same count for a group written with 1-based or 0-based indices.", "quantifier": "all groups and concentration lists", "why_tests_cant": "The domain is infinite; tests sample a handful of values.", "anchors": ["phenum/polyaburnside.py:polya"]}
{"id": "C17", "title": "Cycle decomposition partitions the sites", "statement": "For every permutation, the per-operation polynomial lists each cycle once: the lengths weighted by multiplicity add up to the number of sites, and the coefficient attached to length r is the number of arrow directions fixed by the r-th power of the arrow permutation.", "quantifier": "all permutations of any size", "why_tests_cant": "The domain is infinite; tests sample a handful of values.", "anchors": ["phenum/polyaburnside.py:_group_to_cyclic"]}
{"id": "C18", "title": "Coefficient of a product of multinomials", "statement": "Product.coeff() equals the coefficient of the target monomial in the expanded product of (sum_j c_j x_j^p)^e, for every list of factors and every target whose exponents add up to the degree of the product (which polya guarantees).", "quantifier": "all factor lists, all targets whose sum equals the total degree", "why_tests_cant": "The domain is infinite; tests sample a handful of values.", "anchors": ["phenum/polyaburnside.py:Product.coeff", "phenum/polyaburnside.py:Sequence", "phenum/polyaburnside.py:Multinomial.nchoosekm"]}
{"id": "C19", "title": "All Hermite normal forms of a determinant, once each", "statement": "find_all_HNFs(n) lists exactly the integer matrices [[a,0,0],[b,c,0],[d,e,f]] with acf=n, 0<=b<c, 0<=d,e<f, each once. Their number is the sum over the divisors q of n of q times the sum of the divisors of q.", "quantifier": "all n>=1", "why_tests_cant": "The domain is infinite; tests sample a handful of values.", "anchors": ["phenum/HNFs.py:find_all_HNFs", "phenum/HNFs.py:_get_HNF_diagonals"]}
{"id": "C20", "title": "Every superlattice is listed exactly once", "statement": "Every integer 3x3 matrix of determinant +-n generates (by columns) the same lattice as exactly one member of find_all_HNFs(n). There are as many superlattices of index n as listed matrices.", "quantifier": "all non-singular integer 3x3 matrices", "why_tests_cant": "The domain is infinite; tests sample a handful of values.", "anchors": ["phenum/HNFs.py:find_all_HNFs"]}
{"id": "C21", "title": "Lattice equivalence test decides lattice equality", "statement": "In exact arithmetic the equivalence test of two non-singular bases is true iff they generate the same lattice; hence it is an equivalence relation.", "quantifier": "all pairs of non-singular rational bases", "why_tests_cant": "The domain is infinite; tests sample a handful of values.", "anchors": ["phenum/grouptheory.py:_is_equiv_lattice"]}
{"id": "C22", "title": "Duplicate superlattice removal keeps one per class", "statement": "The list of unique HNFs contains, for every candidate HNF, exactly one HNF whose superlattice is a rotation (by an operation of the supplied group) of the candidate's.", "quantifier": "all HNF lists, all parent lattices, all finite rotation groups", "why_tests_cant": "Ranges over all finite permutation groups, all concentrations and all colourings; the number of cases is infinite and grows super-exponentially.", "anchors": ["phenum/HNFs.py:remove_duplicate_lattices"]}
{"id": "C23", "title": "Smith normal form is correct", "statement": "Whenever SmithNormalForm returns (M,A,B), M = A*HNF*B, A and B are unimodular, and M is diagonal with positive entries each dividing the next.", "quantifier": "all integer 3x3 matrices of determinant >=1", "why_tests_cant": "The domain is infinite; tests sample a handful of values.", "anchors": ["phenum/grouptheory.py:SmithNormalForm", "phenum/grouptheory.py:_find_minmax_indices"]}
{"id": "C24", "title": "Smith normal form terminates and succeeds", "statement": "The reduction loops always terminate, none of the internal self-checks fires, and for practical determinants the 100-iteration guard is never hit, so a result is always returned.", "quantifier": "all integer 3x3 matrices of determinant >=1 (below a stated bound for the iteration guard)", "why_tests_cant": "Termination over unbounded inputs.", "anchors": ["phenum/grouptheory.py:SmithNormalForm"]}
{"id": "C25", "title": "Unrestricted concentrations are complete", "statement": "get_concs_for_size without restrictions lists every tuple of nspecies non-negative counts summing to size*nB, exactly once.", "quantifier": "all sizes, species counts and basis sizes", "why_tests_cant": "The domain is infinite; tests sample a handful of values.", "anchors": ["phenum/symmetry.py:get_concs_for_size"]}
{"id": "C26", "title": "Restricted concentrations are exactly those inside the ranges", "statement": "get_concs_for_size with restrictions lists exactly once each tuple of counts that sums to the number of sites and whose fractions lie inside the given ranges.", "quantifier": "all sizes, all concentration ranges", "why_tests_cant": "The domain is infinite; tests sample a handful of values.", "anchors": ["phenum/symmetry.py:get_concs_for_size"]}
{"id": "C27", "title": "Bringing a point into the cell", "statement": "bring_into_cell terminates without hitting its iteration guard, returns a point whose lattice coordinates differ from the input by integers and lie in [0-eps,1-eps].", "quantifier": "all points, all non-singular cells, all tolerances 0<=eps<1/2", "why_tests_cant": "The domain is infinite; tests sample a handful of values.", "anchors": ["phenum/symmetry.py:bring_into_cell", "phenum/vector_utils.py:cartesian2direct"]}
{"id": "C28", "title": "Every structure can be mapped to real space, site by site", "statement": "map_enumStr_to_real_space either exits with its error message, exactly when its loops do not meet n interior points, or it visits n interior points per basis atom, pairwise inequivalent modulo the superlattice, gives each of them a different label index, so that gIndx is a permutation of the label positions, and sets one spin variable per site. It exits for some valid structures (HNF [2,1,2,0,1,2]) because int() truncates a negative lower bound toward zero.", "quantifier": "all HNFs with their Smith data", "why_tests_cant": "The domain is infinite; tests sample a handful of values.", "anchors": ["phenum/vector_utils.py:map_enumStr_to_real_space"]}
{"id": "C29", "title": "The translation group table is complete and ordered", "statement": "_make_member_list enumerates every element of Z_n0 x Z_n1 x Z_n2 exactly once in lexicographic order, and the label index used when writing structures is the position in that table; the translation permutations derived from it form a group acting simply transitively.", "quantifier": "all positive diagonals", "why_tests_cant": "The domain is infinite; tests sample a handful of values.", "anchors": ["phenum/grouptheory.py:_make_member_list", "phenum/grouptheory.py:_find_permutation_of_group", "phenum/vector_utils.py:map_enumStr_to_real_space"]}
{"id": "C30", "title": "enum.in round trip", "statement": "Writing an 'all' distribution and reading the file back yields exactly the same (HNF, concentrations, number) rows.", "quantifier": "all distributions, all integer values", "why_tests_cant": "The domain is infinite; tests sample a handful of values.", "anchors": ["phenum/structures.py:_print_distribution", "phenum/io_utils.py:read_enum"]}
{"id": "C31", "title": "enum.out row round trip", "statement": "A structure row written by the enumeration is split by the reader into the same numbers and strings, for every file whose numbers fit their columns (cell size below 1000, SNF and HNF entries below 100, transform entries between -1000 and 10^4, counters below 10^11): reading the whole enum.out file back gives, for the structures asked for, the same structure number, size number, size, SNF, HNF, transform, labeling and arrows, and lattice and basis vectors to the seven printed decimals. Without the width condition it fails: rows with 100 atoms run together and cannot be read.", "quantifier": "all lists of structures, all parameters, all selections of structure numbers", "why_tests_cant": "The domain is infinite; tests sample a handful of values.", "anchors": ["phenum/enumeration.py:_enum_out", "phenum/io_utils.py:read_enum_out"]}
{"id": "C32", "title": "Labels survive the string encoding", "statement": "The label and arrow strings written for a configuration have one character per site and decode, character by character, to the species and arrow of each site, for up to ten species; with eleven species two different configurations are written the same way.", "quantifier": "all configurations with up to ten species; a concrete pair for more", "why_tests_cant": "The domain is infinite; tests sample a handful of values.", "anchors": ["phenum/io_utils.py:create_labeling", "phenum/io_utils.py:write_POSCAR", "phenum/vector_utils.py:map_enumStr_to_real_space"]}
{"id": "C33", "title": "A full distribution assigns every structure", "statement": "Distributing all structures (no number given) gives every cell type exactly its predicted count, and the counts add up to the grand total.", "quantifier": "all polya tables", "why_tests_cant": "The domain is infinite; tests sample a handful of values.", "anchors": ["phenum/structures.py:_distribute", "phenum/structures.py:_distribution_summary"]}
{"id": "C34", "title": "How far a distribution of n structures is from n", "statement": "_distribute with n at least the number available returns everything; with whole-number shares it returns exactly the shares, n in total and within what is available; in general the total misses n by less than the number of types with structures and exceeds it by less than the largest share rounded up, and a type gets at most four times its share rounded up. The unrestricted claim (exactly n, never more than available) is false: there are tables and random numbers for which it overshoots, falls short or exceeds what is available.", "quantifier": "all polya tables, all n, all random draws", "why_tests_cant": "Quantifies over every random stream.", "anchors": ["phenum/structures.py:_distribute"]}
{"id": "C35", "title": "Random sampling: what guess_and_check_brancher returns and when it returns at all", "statement": "If guess_and_check_brancher returns, it returns exactly the wanted number of distinct structures of the requested composition (none superperiodic if these are removed); it returns if and only if enough different acceptable structures are ever drawn, and runs for ever when more are wanted than labellings exist. It does not compare structures up to symmetry: any distinct draws are all returned, so equivalent structures can be returned. With arrows the structures are pairwise inequivalent, but all lie on one labelling, and the arrangement with every arrow in the last direction is never drawn.", "quantifier": "all groups, concentrations and random streams", "why_tests_cant": "Quantifies over every random stream; the tests mark the duplicate branches unreachable.", "anchors": ["phenum/tree.py:guess_and_check_brancher"]}
{"id": "C36", "title": "Group closure from generators", "statement": "The group-generation routines return, without repetition, exactly the group generated by the given permutations.", "quantifier": "all generator lists of any degree", "why_tests_cant": "Ranges over all finite permutation groups, all concentrations and all colourings; the number of cases is infinite and grows super-exponentially.", "anchors": ["phenum/polyaburnside.py:group", "phenum/grouptheory.py:_group", "phenum/grouptheory.py:a_group_gen"]}
{"id": "C37", "title": "Displacements in the output follow the enumerated arrows", "statement": "In a POSCAR an atom whose character in the arrow string is 0 stays on its lattice point; any other is displaced along one coordinate axis by the displacement asked for times the lattice parameter, up to the rattle fraction. The axis is not that of the enumerated arrow and the character used is not that of the atom's own site: the writers' direction tables agree with none of the enumeration's arrows, and in a concrete three-atom cell the atom without arrow is the one displaced. In a config file atoms without arrow are displaced as well and arrow 6 ends in an error.", "quantifier": "all structures and arrow labelings, any displacement, any random numbers bounded by the rattle", "why_tests_cant": "The domain is infinite; tests sample a handful of values.", "anchors": ["phenum/io_utils.py:write_POSCAR", "phenum/io_utils.py:write_config", "phenum/grouptheory.py:_get_rotation_perms_lists"]}
{"id": "C38", "title": "POSCAR composition matches the labelling", "statement": "The species counts and the atoms written to a POSCAR agree with the labelling: each atom is listed exactly once, grouped by species, with counts equal to the number of sites with that label.", "quantifier": "all structures", "why_tests_cant": "The domain is infinite; tests sample a handful of values.", "anchors": ["phenum/io_utils.py:write_POSCAR"]}
{"id": "C39", "title": "Lattice reduction preserves the lattice, and gives up only at its iteration limits", "statement": "Gaussian and Minkowski reduction return bases generating the same lattice; a successful Gaussian reduction of two vectors is reduced, a successful Minkowski reduction returns a Minkowski-reduced right-handed basis of the same volume, both up to the tolerance. Dependent vectors are refused. The Gaussian reduction succeeds whenever one of the two vectors is not longer than 120 times the shortest vector of their lattice (and both are at most 10^9 times the tolerance), and there are vectors for which it gives up. For lattices with moderate numbers the Minkowski reduction gives up only because ten steps of a Gaussian reduction or ten passes were not enough, never because its final check fails. It succeeds for all supercells of up to seven cells of the simple, face centred and body centred cubic lattices with any edge of at least 1/50.", "quantifier": "all linearly independent real vectors, all tolerances in the stated ranges; all edges, all orders of the primitive vectors, all supercells of at most seven cells", "why_tests_cant": "The domain is infinite; tests sample a handful of values.", "anchors": ["phenum/vector_utils.py:_gaussian_reduce_two_vectors", "phenum/vector_utils.py:_reduce_C_in_ABC", "phenum/vector_utils.py:_minkowski_reduce_basis"]}
{"id": "C40", "title": "Decorations have the requested composition", "statement": "arrow_concs builds a decoration with, for each species, the requested number of atoms and the requested number of arrows, arrow-free species first, and how_many_arrows recovers the arrow and species counts from it.", "quantifier": "all concentration and arrow lists", "why_tests_cant": "The domain is infinite; tests sample a handful of values.", "anchors": ["phenum/phonons.py:arrow_concs", "phenum/phonons.py:how_many_arrows", "phenum/phonons.py:_col_sort", "phenum/phonons.py:_find_concentrations", "phenum/tree.py:_color_list"]}
{"id": "C41", "title": "Selection of structures and switches of makeStr", "statement": "makeStr n selects structure n, makeStr a b the structures from a to b both included, makeStr all (in any case) all of them; anything else is refused with an error. The switches -mink f and -remove_zeros f have no effect: the files written are the same as with t (only a caller passing the boolean False turns the reduction off).", "quantifier": "all words given by the user, all option values, all input files", "why_tests_cant": "The domain is infinite; tests sample a handful of values.", "anchors": ["phenum/phenumStr.py:run", "phenum/phenumStr.py:_make_structures"]}
{"id": "C42", "title": "Vegard average", "statement": "The lattice parameter is the concentration-weighted mean of the elemental ones (so it lies between their extremes) and a wrong number of species is rejected.", "quantifier": "all species lists and concentrations", "why_tests_cant": "The domain is infinite; tests sample a handful of values.", "anchors": ["phenum/element_data.py:get_lattice_parameter"]}
{"id": "C43", "title": "An enumeration request is honoured exactly when 1 <= wanted <= total < 10^6, and never reported", "statement": "For a request handled exhaustively, superperiodic structures kept and no acceptance rate, enum_sys returns pairwise inequivalent structures of the requested composition: exactly the wanted number if it is between 1 and the number of inequivalent structures and that number is below 10^6, and all of them otherwise, never an error. For one species with arrows on all atoms the first wanted structures (or a random sample of exactly that many) are returned, but for 12 or more atoms and at most 100 wanted it never returns (NameError); with arrows on some of the atoms only one choice of sites is considered. With superperiodic structures removed, fewer structures than requested may be returned, without an error.", "quantifier": "all systems and requests", "why_tests_cant": "Ranges over all finite permutation groups, all concentrations and all colourings; the number of cases is infinite and grows super-exponentially.", "anchors": ["phenum/phonons.py:enum_sys", "phenum/phonons.py:add_arrows", "phenum/tree.py:brancher"]}
{"id": "C44", "title": "Supercell symmetry operations form a group", "statement": "The operations kept as fixing a superlattice are closed under composition and inverse, and the reported degeneracy plus one is the number of distinct rotated superlattices.", "quantifier": "all finite rotation groups and superlattices", "why_tests_cant": "Ranges over all finite permutation groups, all concentrations and all colourings; the number of cases is infinite and grows super-exponentially.", "anchors": ["phenum/grouptheory.py:_get_sLV_fixing_operations"]}
{"id": "C45", "title": "The lattice point group is complete", "statement": "get_lattice_pointGroup returns exactly the orthogonal matrices that map the parent lattice onto itself, each exactly once, and they form a group. The number of operations is even and divides 48.", "quantifier": "all non-singular sets of three lattice vectors", "why_tests_cant": "the search range is derived from the lattice vectors; that no symmetry lies outside it must hold for every lattice", "anchors": ["phenum/symmetry.py:get_lattice_pointGroup"]}
{"id": "C46", "title": "The generated permutations are the symmetry group of the supercell", "statement": "For a space group that fixes the superlattice, the list of site (and arrow) permutations generated for a supercell consists exactly of the permutations induced by the operations combined with lattice translations; it is a group, and its first n entries are exactly the pure translations.", "quantifier": "all lattices, basis sets, space groups whose rotations permute the Cartesian arrow directions, all supercells", "why_tests_cant": "the group property and the position of the translations are assumed by all later stages for every crystal and supercell", "anchors": ["phenum/grouptheory.py:_get_rotation_perms_lists", "phenum/grouptheory.py:_find_permutation_of_group", "phenum/grouptheory.py:_make_member_list"]}
{"id": "C47", "title": "The space group is sound and complete", "statement": "get_spaceGroup returns operations that map the crystal (atoms with their types, modulo the lattice) onto itself, contains every such operation up to lattice translations, and is a group up to lattice translations.", "quantifier": "all lattices and all bases with at least one atom", "why_tests_cant": "soundness and completeness range over all crystals and all candidate motions", "anchors": ["phenum/symmetry.py:get_spaceGroup", "phenum/symmetry.py:_does_mapping_exist"]}
{"id": "C48", "title": "Superperiodic structures with arrows: what is kept, and what is lost", "statement": "With superperiodic structures excluded, an enumeration with arrows returns pairwise inequivalent structures of the right composition none of which a non-trivial lattice translation leaves unchanged. If in every species all atoms or none carry arrows it returns exactly one of every orbit of such structures; for every decoration it returns exactly one of every orbit whose species alone are changed by each non-trivial translation. If only some atoms of a species carry arrows, orbits that are not superperiodic can be missing.", "quantifier": "all groups of site and arrow permutations with normal translations, all decorations with arrows, any number of species", "why_tests_cant": "Ranges over all finite groups and decorations; a structure that is wrongly removed is simply missing from the output.", "anchors": ["phenum/phonons.py:add_arrows", "phenum/tree.py:brancher"]}
{"id": "C49", "title": "polya.out round trip", "statement": "The counting table written to polya.out is read back, by the code that builds enum.in, as the same concentrations, HNFs, counts and totals, whenever the entries are narrower than the columns of the file (50 characters for a concentration or a count, 26 for an HNF).", "quantifier": "all tables, any number of concentrations and HNFs, all counts", "why_tests_cant": "Text columns run together only for large entries; tests use a few small tables.", "anchors": ["phenum/enumeration.py:_polya_out", "phenum/structures.py:_distribution_summary"]}
{"id": "C50", "title": "Order and numbering of enum.out", "statement": "The rows of enum.out are exactly the enumerated structures, sorted by cell size and then by labeling string; the first column numbers them 1, 2, 3, ... and the size column counts the structures of the same size from 1.", "quantifier": "all lists of enumerated structures, from any number of HNFs and concentrations", "why_tests_cant": "Holds for every list of structures whatever the order of the systems in enum.in; tests compare a few files.", "anchors": ["phenum/enumeration.py:_enum_out"]}
{"id": "C51", "title": "POSCAR files describe the structures of enum.out", "statement": "Running makeStr on the enum.out file written by the enumeration writes, for every structure asked for and in the order of the file, one POSCAR whose cell generates the superlattice of the structure and whose atoms, repeated with the superlattice, are exactly the crystal that has at every site of the supercell the species given by the structure's labeling (undisplaced structures that can be mapped to real space; lattice vectors to the seven printed decimals).", "quantifier": "all enum.out files, all selections of structures, all supercells and labelings", "why_tests_cant": "The statement is an equality of infinite periodic sets for every supercell and labeling; tests compare a few files with stored ones.", "anchors": ["phenum/phenumStr.py:run", "phenum/phenumStr.py:_make_structures", "phenum/io_utils.py:write_POSCAR", "phenum/vector_utils.py:map_enumStr_to_real_space"]}
{"id": "C52", "title": "One POSCAR file per structure", "statement": "With an output pattern that has one field {} (or none) the POSCAR files of different structures have different names, namely the pattern with the structure number in place of the field (or appended after a point), so no file is overwritten. A pattern with two fields is refused; a pattern with doubled braces gives all structures the same name.", "quantifier": "all patterns, all structure numbers", "why_tests_cant": "The domain is infinite; tests use one pattern.", "anchors": ["phenum/io_utils.py:write_POSCAR"]}
{"id": "C53", "title": "get_sym_group returns exactly the symmetries of the supercell", "statement": "For lattice vectors, atomic basis and a supercell (HNF), get_sym_group returns exactly the set of permutations of the sites of the supercell (with the permutation of the six arrow directions) that are induced by the symmetries of the crystal mapping the superlattice to itself; the result is a group and its first n elements are the translations. This holds for one atom per cell at a lattice point (in particular for all cubic lattices) and for crystals whose rotations have order at most two; it is shown that for other crystals - already one atom off the lattice points of a simple cubic lattice - the call exits.", "quantifier": "all lattices, atomic bases, supercells of fewer than 2^24 cells, all sufficiently small tolerances", "why_tests_cant": "The statement is about the full symmetry group of every crystal and every supercell; tests compare stored groups for a few lattices.", "anchors": ["phenum/grouptheory.py:get_sym_group", "phenum/grouptheory.py:_get_dvector_permutations", "phenum/grouptheory.py:_map_dvector_permutation", "phenum/grouptheory.py:_fixing_operations", "phenum/grouptheory.py:_get_rotation_perms_lists"]}
{"id": "C54", "title": "get_HNFs lists each superlattice once up to symmetry", "statement": "get_HNFs(n, lattice, basis) returns different Hermite normal forms of determinant n such that every superlattice of index n is mapped by some symmetry of the crystal onto exactly one of them; remove_duplicate_lattices reports with each the number of different superlattices equivalent to it. The degeneracies reported by remove_duplicate_lattices for the kept HNFs add up to the number of all HNFs of that index.", "quantifier": "all lattices and bases permuted by the computed operations, all n >= 1, all sufficiently small tolerances", "why_tests_cant": "Holds for every lattice and every n; tests compare stored lists for small n.", "anchors": ["phenum/HNFs.py:get_HNFs", "phenum/HNFs.py:remove_duplicate_lattices", "phenum/HNFs.py:_remove_duplicates", "phenum/HNFs.py:_find_all_HNFs"]}
{"id": "C55", "title": "Surface cells (LatDim = 2)", "statement": "_rm_3D_operations keeps exactly the operations that map the surface normal (the first axis) to itself or its negative, and raises ValueError exactly for lattice vectors that are not of the checked form (which is not the documented form). The drivers, however, fail with IndexError for LatDim = 2 for every cubic-like lattice: the number of basis permutations no longer matches the number of operations.", "quantifier": "all lattices, all lists of orthogonal operations, all sufficiently small tolerances", "why_tests_cant": "Ranges over all operations and lattices; tests check stored examples.", "anchors": ["phenum/grouptheory.py:_rm_3D_operations", "phenum/grouptheory.py:_get_dvector_permutations", "phenum/grouptheory.py:get_sym_group", "phenum/HNFs.py:get_HNFs"]}
{"id": "C56", "title": "Every derivative structure is enumerated exactly once", "statement": "For a parent crystal that the symmetry search handles, taking the supercells of get_HNFs for a size n and, for each of them, the group of get_sym_group, the count of polya and a complete request to enum_sys, every structure derived from the crystal with the requested contents (any superlattice of index n, any periodic assignment of species, and displacements along the axes if arrows are requested) is up to a symmetry of the crystal drawn by exactly one of the supercells and labelings returned; the number of labelings returned for each supercell is the number counted. With superperiodic structures removed the same holds for the structures without a smaller period, and all returned labelings draw such structures.", "quantifier": "all usable crystals (in particular all cubic lattices with one atom per cell), all sizes, all compositions, all superlattices of the size, all periodic decorations, all sufficiently small tolerances, all random choices", "why_tests_cant": "It quantifies over all superlattices and all real-space structures, an infinite family for every size; tests compare counts or files for a few lattices.", "anchors": ["phenum/HNFs.py: get_HNFs", "phenum/grouptheory.py: get_sym_group", "phenum/phonons.py: enum_sys", "phenum/polyaburnside.py: polya"]}
{"id": "C57", "title": "Doing the steps one by one changes nothing", "statement": "In a directory without results of earlier runs, `enumeration.py -enum` (with any selection, filter, sizes and acceptance options) has the same outcome, the same error or the same files, as `enumeration.py -polya` followed by it, and as `enumeration.py -distribution` followed by it if the latter writes enum.in. Running a successful call again leaves every file as it is, whatever the order of the directory listing and the random numbers of the selection. When enum.in exists, the outcome and enum.out depend on it and on the lattice file only.", "quantifier": "all calls, all directories, all contents of the files, all orders of the directory listing, all random choices, all tolerances", "why_tests_cant": "It relates runs on every possible directory and every failure; tests run the parts on stored files.", "anchors": ["phenum/enumeration.py:_script_enum", "phenum/enumeration.py:_polya_out", "phenum/enumeration.py:_enum_in", "phenum/enumeration.py:_enum_out", "phenum/structures.py:make_enum_in"]}
{"id": "C58", "title": "The program lists every structure exactly once", "statement": "Started as `enumeration.py -enum -super` in a directory with lattice.in and without results of earlier runs, the program finishes and writes enum.out, whose rows are different; each row, read with its HNF, SNF, left transform, labeling and arrows as the format prescribes, describes a structure, and every structure derived from the crystal in the sizes and concentrations asked for (any superlattice, any periodic decoration with species and, if asked for, displacements) is up to a symmetry of the crystal described by exactly one row. The tables polya.out.* contain the number of rows of every supercell and composition.", "quantifier": "all lattice files (at most ten species, at most 20 atoms per supercell, fewer than 12 with arrows) for crystals the symmetry search handles, all superlattices, all periodic decorations, all orders of the directory listing, all random choices, all sufficiently small tolerances", "why_tests_cant": "It quantifies over all structures and all input files; tests compare files for a few inputs.", "anchors": ["phenum/enumeration.py:_script_enum", "phenum/enumeration.py:_polya_out", "phenum/enumeration.py:_enum_in", "phenum/enumeration.py:_enum_out", "phenum/structures.py:make_enum_in", "phenum/phonons.py:enum_sys", "phenum/io_utils.py:read_lattice"]}
{"id": "C59", "title": "Reading lattice.in", "statement": "read_lattice ignores comment lines wherever they stand and returns exactly what is written in a file of the documented form (sizes, bulk or surface, vectors, species, atoms, restrictions, arrows). A blank line anywhere, for instance at the end, raises IndexError, and two blanks in a row between the sizes raise ValueError.", "quantifier": "all contents (any number of atoms, species and restrictions, any numbers with seven decimals), all positions of comments and blank lines", "why_tests_cant": "Ranges over all files; tests read stored ones.", "anchors": ["phenum/io_utils.py:read_lattice"]}
{"id": "C60", "title": "Calls that cannot give what they promise", "statement": "Some combinations of options never succeed or have a different effect: -enum with -distribution other than all and without -savedist fails when there is no enum.in; -distribution size fails even with -savedist, because the file saved cannot be read back; -sizes n n selects nothing and fails; -polya together with -enum writes the structures to polya.out and makes the next -distribution fail with ValueError; and once some table polya.out.* exists, -distribution gives the same enum.in whatever the lattice file has become.", "quantifier": "all directories, all contents, all other options, all random choices, all tolerances", "why_tests_cant": "They are statements about every run; a test shows one failing run.", "anchors": ["phenum/enumeration.py:_script_enum", "phenum/enumeration.py:_enum_in", "phenum/enumeration.py:_enum_out", "phenum/structures.py:make_enum_in", "phenum/structures.py:_print_distribution"]}
{"id": "C61", "title": "The default call lists every crystal structure exactly once, whatever its cell", "statement": "Started as `enumeration.py -enum` (without `-super`) in a directory with lattice.in and without results of earlier runs, for two or three species and no displaced atoms, the program finishes and writes enum.out, whose rows are different and describe only structures without a smaller period than their cell; every structure without a smaller period in the sizes and concentrations asked for is described by exactly one row. In particular, with sizes 1 to hi and no restrictions, every decoration of the crystal by the species that is periodic with respect to any superlattice of at most hi cells is, up to a symmetry of the crystal, described by exactly one row, so that no structure is listed twice in different cells.", "quantifier": "all lattice files with two or three species, no arrows, at most 20 atoms per supercell, for crystals the symmetry search handles; all superlattices; all periodic decorations; all orders of the directory listing, all random choices, all sufficiently small tolerances", "why_tests_cant": "It quantifies over all decorations, all superlattices and all input files; tests compare files for a few inputs.", "anchors": ["phenum/enumeration.py:_script_enum", "phenum/enumeration.py:_enum_out", "phenum/phonons.py:enum_sys", "phenum/tree.py:brancher", "phenum/grouptheory.py:get_sym_group"]}
{"id": "C62", "title": "From lattice.in to POSCAR files: every crystal structure is shown by exactly one file", "statement": "Running `enumeration.py -enum` in a directory with lattice.in (sizes 1 to hi with hi at most 7, two or three species, no restrictions, numbers with at most seven decimals) and then makeStr on the enum.out it wrote, for all structures and without naming species, both programs finish; all POSCAR files written have different names, each shows an undisplaced decoration of the sites of the crystal (scale factor 1), and every decoration of the crystal by the species that is periodic with respect to any superlattice of at most hi cells is, up to a symmetry of the crystal, shown by exactly one POSCAR file.", "quantifier": "all such lattice files with at most 18 atoms per supercell, for crystals the symmetry search handles; all superlattices of at most seven cells; all periodic decorations; all orders of the directory listing, all random choices, all sufficiently small tolerances; with the reduction of the cells, provided that it does not give up", "why_tests_cant": "It composes two programs through a text file and quantifies over all crystals, all superlattices and all decorations; tests compare single POSCAR files.", "anchors": ["phenum/enumeration.py:_script_enum", "phenum/enumeration.py:_enum_out", "phenum/phenumStr.py:run", "phenum/phenumStr.py:_make_structures", "phenum/vector_utils.py:map_enumStr_to_real_space", "phenum/io_utils.py:read_enum_out", "phenum/io_utils.py:write_POSCAR"]}
{"id": "C63", "title": "The tolerances written in the code are small enough for crystals with ordinary numbers", "statement": "With the tolerances the program uses (1E-7 in the search for supercells, 1E-10 in the symmetry group and in the concentration ranges) the point group and the space group returned are exact, and the statements about complete runs (every structure, every crystal, every POSCAR exactly once) hold, for every crystal whose numbers the tolerance can tell apart: in particular whenever the lattice vectors have components of at most 10 with at most two decimals and the lattice coordinates of the atoms are multiples of 1/D with D at most a million and at most 10000 times the cell volume. Nothing is left to assume for the repository's input/fcc/lattice.in, and for the cubic lattices nothing is left to assume about the reduction of the cells in makeStr, which is on by default. If two edges differ by less than a quarter of the tolerance, the point group returned contains a matrix that is not orthogonal.", "quantifier": "all lattices and atoms that meet the numerical conditions, all tolerances that meet them, all lattice files as in C58, C61 and C62; for the last sentence all edges and tolerances in the stated relation", "why_tests_cant": "A test fixes a crystal; whether a given tolerance separates symmetries from near-symmetries must be decided over all candidate matrices and vectors of all such crystals.", "anchors": ["phenum/symmetry.py:get_lattice_pointGroup", "phenum/symmetry.py:get_spaceGroup", "phenum/symmetry.py:bring_into_cell", "phenum/HNFs.py:get_HNFs", "phenum/grouptheory.py:get_sym_group", "phenum/symmetry.py:get_concs_for_size"]}
{"id": "C64", "title": "The figures of -visualize show the supercells and their atoms", "statement": "`enumeration.py -visualize -input file` on a file like enum.in whose lines list supercells makes one figure for each line, in order, named after the six numbers of the HNF. For a crystal with one atom per parent cell whose matrix of lattice vectors is symmetric, the figure shows one cell that generates the superlattice of the HNF, only sites of the crystal, inside the cell, and every site of the crystal up to the superlattice exactly once; with `-shapes` the lines drawn are exactly the twelve edges of that cell. Figures of different supercells of up to nine cells have different names. It fails otherwise: a lattice with a matrix that is not symmetric is drawn transposed, with two or more atoms per parent cell the run stops with IndexError, from twelve cells on two figures can have the same name, and without -input the run stops with TypeError.", "quantifier": "all lattice files and all lists of supercells of up to seven cells on which the reduction does not give up (all of them for the cubic lattices with edge at least 1/50), all numbers of species", "why_tests_cant": "The tests run the plotting code in a mode that only checks that no exception is raised; that the right cell is drawn with the right atoms must hold for every lattice and every supercell.", "anchors": ["phenum/visualize.py:HNF_shapes", "phenum/visualize.py:HNF_atoms", "phenum/visualize.py:_convert_read_lat_to_system_dat", "phenum/enumeration.py:_plot_HNFs", "phenum/vector_utils.py:map_enumStr_to_real_space", "phenum/vector_utils.py:cartesian2direct"]}
{"id": "C65", "title": "-filter restricts the selection to the shapes or concentrations of the file", "statement": "`enumeration.py -enum -distribution all ... -filter shape file` with a file that an earlier run wrote with `-distribution shape` lists in enum.in exactly the supercells and concentrations of the tables whose supercell is in the file, each once, with its number of structures. The same holds for `-filter conc file` with the concentrations of two species. With three or more species only two numbers of each concentration are read from the file and nothing is selected. This is for tables in which something passes the filter; when nothing does, enum.in of `-distribution all` is empty and `-distribution size` stops with a ZeroDivisionError.", "quantifier": "all directories with readable tables, all filter files of that form, all lists of sizes", "why_tests_cant": "The tests read one filter file; that nothing else is let through and nothing is dropped must hold for every table and every file.", "anchors": ["phenum/structures.py:make_enum_in", "phenum/structures.py:_distribution", "phenum/structures.py:_distribute", "phenum/structures.py:_print_distribution"]}
{"id": "C66", "title": "A group read from a file is the group written in it", "statement": "`read_group` on a file in the format of enum.x (six lines of heading, then for each element of the group `Perm #: i Perm:` followed by the places, counted from 1, possibly broken over several lines) returns the permutations in order, with the places counted from 0.", "quantifier": "all groups, all permutation lengths, all column widths and all ways of breaking the lines", "why_tests_cant": "A test reads one file; the property must hold for every group.", "anchors": ["phenum/io_utils.py:read_group"]}
{"id": "C67", "title": "The scale of a structure in a config file is that of the species written for its atoms", "statement": "In a config file (makeStr -config) without a species mapping, or with a mapping of the labels into a longer list of species, every atom carries the number of its species (the mapping applied to its label) and the supercell is scaled by the mean over the atoms of the lattice parameters of these species. A mapping with as many entries as there are species is used for the atoms but not for the lattice parameter: a nickel atom can be written into the cell of aluminium.", "quantifier": "all regular lattices, all structures and labelings with at most ten species, all lists of species in the table of elements, all mappings", "why_tests_cant": "Tests compare files for a few structures; the rule relates the counts of all labels, the mapping and the table of elements for every input.", "anchors": ["phenum/io_utils.py:write_config", "phenum/element_data.py:get_lattice_parameter"]}
{"id": "C68", "title": "The count stays exact in floating point", "statement": "polya() divides with '/', so binomial coefficients, their products and sums are floats. For every group, concentrations and arrowing for which the number of all configurations (before symmetry) times the number of sites, and times the number of operations, is at most 2^53, polya() nevertheless returns exactly the number of orbits, whatever the rounding does to numbers that are not integers up to 2^53. Beyond that it can be wrong: for 27 and 28 atoms on 55 sites without symmetry the result is one too small.", "quantifier": "all groups of site permutations (or paired operations), all concentrations, all arrow flags, all rounding functions that keep the integers up to 2^53 (IEEE double precision is one)", "why_tests_cant": "Tests compare a few small systems; rounding errors appear only for particular large ones, and no finite set of inputs shows that none occurs below the bound.", "anchors": ["phenum/polyaburnside.py:polya", "phenum/polyaburnside.py:Multinomial.nchoosek", "phenum/polyaburnside.py:Multinomial.nchoosekm", "phenum/polyaburnside.py:Product.coeff", "phenum/polyaburnside.py:Product._sum_sequences"]}
{"id": "C69", "title": "Restricted concentrations are right in double precision", "statement": "get_concs_for_size with restrictions computes its volume table, the fractions and the limits in floating point. For ranges inside [0,1] over one positive denominator, with (number of sites)*(denominator) at most 9*10^9, it terminates and lists exactly once each tuple of counts that sums to the number of sites and whose exact fractions lie inside the exact closed ranges: no rounding of the table, the quotients or the limits, and not the tolerance 1E-10 either, adds or loses a composition (in particular not one at the end of a range such as 1/3). Beyond that bound it can list compositions outside the ranges: with denominator 10^11 and one site the composition (0,1) is listed for the range [10^-11, 1].", "quantifier": "all cell sizes, numbers of basis atoms and species, all concentration ranges inside [0,1] with a common denominator under the bound; all roundings with relative error at most 2^-53 that keep the integers up to 2^53 (IEEE double precision is proved to be one)", "why_tests_cant": "Rounding goes wrong only for particular quotients (ends of ranges such as 1/3 of 9 sites); tests sample a few sizes and ranges.", "anchors": ["phenum/symmetry.py:get_concs_for_size"]}
{"id": "C70", "title": "Wrapping into the cell in double precision: exactly when it ends, and how exact it is", "statement": "In double precision the wrapping loop of cartesian2direct() (no guard), started from lattice coordinates up to 2^53 with a tolerance eps up to 1/2, ends if and only if not both: the double 1.0-eps lies below the number 1-eps, and some coordinate has a fractional part below 1-eps that rounds to that double. When it ends the coordinates lie in [-eps, 1-eps) and differ from the given ones by integers up to one rounding (2^-53). In the same cases bring_into_cell() ends without meeting its guard. Consequently cartesian2direct() runs for ever for the direct coordinate 0.999 with tolerance 1E-3, for 1.0-1E-10 with tolerance 1E-10, and for the coordinate 2^53+4; bring_into_cell() stops the program for (1.0-1E-10, (1.0-1E-10)-1.0, 0) with tolerance 1E-10.", "quantifier": "all roundings to a nearest double (ties either way; IEEE double precision is proved to be one), all tolerances up to 1/2 that are doubles, all triples of coordinates that are doubles up to 2^53", "why_tests_cant": "Non-termination occurs only for single bit patterns next to the tolerance; sampling misses them, and termination for all others is a statement about about 2^64 values per coordinate.", "anchors": ["phenum/vector_utils.py:cartesian2direct", "phenum/symmetry.py:bring_into_cell"]}
{"id": "C71", "title": "Finding the atoms of a supercell in double precision", "statement": "map_enumStr_to_real_space computes the limits of its loops over the points of a supercell [[a,0,0],[b,c,0],[d,e,f]] by floating point divisions and truncation. For every supercell of at most 35 cells, and for every supercell of up to 2^49 cells in which a = 1, c = 1, e = 0 or both a and c are powers of two, the rounding has no effect: it returns or stops exactly as in exact arithmetic (C28) with the same atoms, indices and spins, and concentrations rounded once; so no site is missing or repeated. From 36 cells on this is false for supercells the enumeration lists: for (2,5,6,1,2,3) exact arithmetic returns but the program visits 37 points and stops; for (2,5,7,0,2,3) it returns 42 atoms of which two coincide modulo the superlattice, and one site has no atom.", "quantifier": "all supercells with 0<=b<c, 0<=d,e<f, all lattices, basis atoms, labelings and tolerances; all roundings to a nearest double for the second class", "why_tests_cant": "Whether a limit falls on the wrong side of an integer depends on the roundings of six operations for each supercell and column; tests map a handful of small supercells.", "anchors": ["phenum/vector_utils.py:map_enumStr_to_real_space"]}
{"id": "C72", "title": "The number of displaced atoms in double precision", "statement": "arrow_concs multiplies the number of atoms of a species by the fraction of displaced atoms (a float) and truncates. For fractions p/q with 0<=p<=q (held as the nearest double) and (atoms)*q at most 2^51, the decoration has the right number of atoms of each species and floor(n*p/q) of them are displaced, except that where n*p/q is an integer there may be one displaced atom less. With at most 49 atoms of the species and a fraction written as a decimal number there is no exception in IEEE double precision. With 50 atoms there is: for the fraction 0.58 only 28 of 50 atoms are displaced, not 29.", "quantifier": "all compositions, all fractions, all roundings to a nearest double; for the second part all decimal fractions with k digits, 49*10^k <= 2^51", "why_tests_cant": "The loss of an atom depends on the last bits of a product; tests use a few fractions such as 0.5 that are exact.", "anchors": ["phenum/phonons.py:arrow_concs"]}
{"id": "C73", "title": "The search for symmetries is robust against rounding errors", "statement": "get_lattice_pointGroup, get_spaceGroup, get_HNFs and get_sym_group compare computed floats with tolerances and round them. Suppose every number that is compared or rounded is off by up to d from its exact value, with d smaller than the tolerance eps, the errors being different at every place and even for the same number compared twice. Then, for a lattice whose scalar products are multiples of a fraction 1/g and atoms whose lattice coordinates are multiples of 1/D that eps + d does not reach, each call has exactly one possible outcome, that of exact arithmetic: the point group, the space group, one HNF of every class of superlattices, the group of permutations. For ordinary numbers (components up to 10 with two decimals) this covers d up to 1E-8 in get_HNFs with up to nine million cells, and d below 1E-10 in get_sym_group with up to a billion cells. The one exception: get_sym_group without arrows for crystals with a rotation that has an entry within d of one half; for hexagonal lattices exact arithmetic succeeds, but with rounding errors, however small, the program may exit.", "quantifier": "all lattices, atoms, tolerances, sizes and superlattices as described, all errors up to d at every comparison independently", "why_tests_cant": "Rounding errors depend on the platform, the BLAS library and the order of operations; a test sees one history of errors out of a continuum.", "anchors": ["phenum/symmetry.py:get_lattice_pointGroup", "phenum/symmetry.py:get_spaceGroup", "phenum/symmetry.py:bring_into_cell", "phenum/HNFs.py:get_HNFs", "phenum/HNFs.py:remove_duplicate_lattices", "phenum/grouptheory.py:get_sym_group", "phenum/grouptheory.py:_is_equiv_lattice", "phenum/grouptheory.py:_get_dvector_permutations", "phenum/grouptheory.py:_get_rotation_perms_lists"]}
{"id": "C74", "title": "The whole program in floating point", "statement": "enumeration.py -enum -lattice FILE in a fresh directory, with the counts, the concentrations and the numbers of displaced atoms computed in floating point (every operation rounded to a nearest double) and with every number that the searches for symmetries compare or round off by up to d < 1E-10, independently at every place: every run ends with the same files, those of exact arithmetic. So enum.out describes every structure with an allowed composition exactly once (with -super), every crystal exactly once (default call, two or three species). This holds for up to 20 atoms (fewer than 12 with displaced atoms) in crystals whose numbers are coarse compared with 1E-7 + d, for instance components up to 10 with two decimals, concentration ranges with denominators up to 1E8 and numerators not above the denominator, fractions of displaced atoms that are decimal numbers, and as long as 48 N (all decorations of N sites) is at most 2^53.", "quantifier": "all input files as described, all roundings to a nearest double, all errors up to d at every comparison independently, all directory listing orders and random draws", "why_tests_cant": "A run sees one history of rounding errors out of a continuum; one wrong comparison or count changes every later line of the output.", "anchors": ["phenum/enumeration.py:_enum_out", "phenum/enumeration.py:_polya_out", "phenum/enumeration.py:_enum_in", "phenum/phonons.py:enum_sys", "phenum/symmetry.py:get_concs_for_size", "phenum/polyaburnside.py:polya"]}
{"id": "C75", "title": "The program asked for a number of structures", "statement": "enumeration.py -enum -distribution all N -super -lattice FILE in a fresh directory, whatever the random numbers and the order of the directory listing: enum.in requests numbers of structures of some supercells and compositions, each once; all of them if N is at least the number of structures, otherwise at most four times the share of each, in total N up to the known misses (by less than the number of entries, or over by less than the largest share rounded up), and exactly the shares, N in total, if all shares are whole numbers. enum.out then lists, for each request of v structures, v of them (all if there are fewer, or a million or more), each with the supercell and composition of the request; all rows are different and inequivalent: they are part of a list that describes every structure exactly once. If nothing is requested the program stops with a NameError; this happens for N = 0, and for every N so small that all shares are below one when the random numbers are close to one (for instance N = 1 for the simple cubic lattice with sizes 1 and 2).", "quantifier": "all input files of C58/C63 in which no composition needs a random search (at most 100000 labellings, fewer than 12 atoms if some are displaced), all N, all random draws >= 0, all shuffles, all listing orders", "why_tests_cant": "The requests depend on random numbers and the selection on shuffles; a test sees one draw, and repeated or equivalent structures show only in a comparison of all rows up to symmetry.", "anchors": ["phenum/enumeration.py:_script_enum", "phenum/enumeration.py:_enum_out", "phenum/enumeration.py:_enum_in", "phenum/structures.py:_distribute", "phenum/structures.py:make_enum_in", "phenum/phonons.py:enum_sys"]}
{"id": "C76", "title": "The distribution of a requested number in double precision", "statement": "_distribute computes the share of each type as count/total*n in floats and compares its fractional part with random(). With up to 2^50 structures: if all structures are requested (or more than there are) nothing depends on the rounding; if no random number is within n/2^51 of a multiple of 1/total, the result is that of exact arithmetic (C33, C34); if all shares are whole numbers each type gets exactly its share unless a random number is within n/2^51 of 0 or 1. For all random numbers the types in the result have structures and are listed once with positive numbers at most four times one more than the share rounded up, and the total misses n by at most the number of types with structures and exceeds it by at most the largest share rounded up. Without the condition on the random numbers the whole shares are not guaranteed: for 50 of 58 + 42 structures 0.58*50 is below 29 in doubles and 49 structures may be requested.", "quantifier": "all tables with up to 2^50 structures, all filters and kinds of distribution, all numbers requested, all random numbers, all roundings to a nearest double", "why_tests_cant": "The loss depends on the last bit of a product and on a random number close to 1; a test would have to hit both.", "anchors": ["phenum/structures.py:_distribute"]}
{"id": "C77", "title": "The program asked for a number of structures, with rounding errors", "statement": "enumeration.py -enum -distribution all N -super -lattice FILE with every operation of the distribution rounded to a nearest double and every number compared in the symmetry searches off by less than 1E-10 (as C74): whatever the random numbers, the requests of enum.in are close to the exact shares (bounds of C76); they are exactly those of exact arithmetic (C75) if no random number is within N/2^51 of a multiple of 1/total, and exactly the shares if these are whole and no random number is within N/2^51 of 0 or 1; N at least the number of structures requests everything. All runs with the same random numbers and listing order, whatever the errors, end in the same way: with rows that are part of a list describing every structure exactly once, as many per request as C75 says, or, if nothing is requested (for instance N = 0), with a NameError.", "quantifier": "all input files of C75 with up to 2^50 structures, all N, all random draws, shuffles and listing orders, all roundings and all errors below 1E-10", "why_tests_cant": "A test runs one machine's rounding and one sequence of random numbers; the claim ranges over all of them and compares all rows up to symmetry.", "anchors": ["phenum/enumeration.py:_script_enum", "phenum/enumeration.py:_enum_out", "phenum/structures.py:_distribute", "phenum/structures.py:make_enum_in", "phenum/phonons.py:enum_sys"]}
{"id": "C78", "title": "The default call with ranges of concentrations lists every allowed crystal once", "statement": "For a lattice.in with ranges of concentrations, sizes 1 to hi, two or three species and no displaced atoms, enumeration.py -enum -lattice FILE (without -super) in a fresh directory finishes; the rows of enum.out are all different; every row describes a crystal whose species fractions lie in the ranges; and every crystal with fractions in the ranges that is periodic with respect to some superlattice of at most hi cells is, up to a symmetry of the parent crystal, described by exactly one row, whatever the cell in which its atoms are counted. makeStr makes from this enum.out exactly one POSCAR for each of these crystals and no others. The same holds with the tolerances of the code, and with rounding errors as in C74.", "quantifier": "all lattice files with at most 20 atoms per supercell (18 and 7 cells for the POSCAR files), all ranges with a common denominator, all decorations, all listing orders, all tolerances small enough or those of the code with numbers the tolerance can tell apart, all roundings and all errors below 1E-10", "why_tests_cant": "A test compares a few counts with a table; that no allowed crystal is missing, duplicated in another cell or excluded because its fractions were counted in the wrong cell must hold for every crystal and every set of ranges.", "anchors": ["phenum/enumeration.py:_script_enum", "phenum/enumeration.py:_enum_out", "phenum/symmetry.py:get_concs_for_size", "phenum/phonons.py:enum_sys", "phenum/phenumStr.py:_make_structures"]}
{"id": "C79", "title": "From lattice.in to POSCAR files of named elements, scaled to their lattice parameters", "statement": "enumeration.py -enum -lattice FILE and then makeStr on its enum.out for all structures with the names of k different known elements: POSCAR files with different names are written; the atoms of each, grouped by the names and numbers of its heading and repeated with its cell, are exactly a crystal with one of the elements at each site of the parent crystal, with fractions in the ranges of lattice.in if there are any; every such crystal that is periodic with respect to a superlattice of at most hi cells is, up to a symmetry of the parent crystal, shown by exactly one file. The scale factor of each file is the mean over its atoms of the lattice parameters at which the parent cell has the volume of the element. The heading lists all elements in the order given or, if absent elements are left out, those that occur and no zero. The enumeration may be rounded as in C74 and C78.", "quantifier": "all lattice files of C62 and C78, all lists of k different known elements, both kinds of heading, reduction of the cells or not, all decorations, all listing orders, all roundings and all errors below 1E-10 in the enumeration", "why_tests_cant": "A test compares one file with a stored one; a shift between names, numbers and positions when a species is absent, or a weight that belongs to another element, shows only for some labelings, and that no crystal is missing concerns them all.", "anchors": ["phenum/enumeration.py:_script_enum", "phenum/phenumStr.py:_make_structures", "phenum/io_utils.py:write_POSCAR", "phenum/element_data.py:get_lattice_parameter"]}
{"id": "C80", "title": "The table of a distribution on the screen", "statement": "enumeration.py -distribution KIND N (KIND size, shape or conc; N a number or 'all') in a directory with lattice.in and no earlier results finishes and shows the messages about the restrictions in lattice.in followed by a table; cut at the line breaks and bars, each line of the table gives the size, the shape, the composition and a number of one type of structures, no type twice, ordered by size, then number, then shape. For 'all', or a number not below the total, the types shown are exactly those that have structures, each with the true number of inequivalent structures, and the numbers add up to the number of structures that -enum lists; for a smaller number the numbers obey the bounds of C34, and are the exact shares if these are whole numbers. polya.out files hold the tables of counts, enum.in is written only with -savedist, nothing else is changed. Showing messages changes nothing else of any run. -polya, and -enum when its input file exists, show the lines about the lattice file and nothing else; -enum in a directory with only the lattice file, and -polya -enum, show them twice.", "quantifier": "all lattice files of C57-C59, all kinds except 'all', all numbers, all listing orders, all random numbers, all settings of the messages; the table itself for all distributions", "why_tests_cant": "A test looks at one table. That lines of equal size and number do not overwrite each other, that the fields never run together whatever their widths, and that the numbers are the true ones, concerns all distributions.", "anchors": ["phenum/structures.py:_print_distribution", "phenum/structures.py:make_enum_in", "phenum/msg.py:arb", "phenum/enumeration.py:_script_enum", "phenum/io_utils.py:read_lattice"]}
{"id": "C81", "title": "Which messages are shown, and the help", "statement": "Without -verbose errors, information and the output proper are shown on lines of their own, warnings never; with -verbose every message is shown; quiet hides exactly the messages of level 1; a higher verbosity hides nothing. A line in several colours shows its text with each part in its colour, or there is an IndexError if a colour is missing. The help consists of its lines in order, with the examples numbered from 1. Defects: the description of quiet (messages of level 0 or more are printed) is wrong, set_verbosity(False) switches warnings on, and enumeration.py -examples always ends with a TypeError, makeStr -examples with a ValueError, after the help has been shown.", "quantifier": "all settings, levels, texts, colours and separators; all help texts; all command lines", "why_tests_cant": "The settings, levels and texts are unbounded, and that a warning is never seen concerns all runs.", "anchors": ["phenum/msg.py:will_print", "phenum/msg.py:arb", "phenum/msg.py:example", "phenum/base.py:exhandler", "phenum/enumeration.py:_parser_options", "phenum/phenumStr.py:run"]}
{"id": "C82", "title": "The program asked for some sizes, shapes or compositions", "statement": "enumeration.py -enum -super with -sizes A B and -filter shape|conc FILE (each may be missing, also -distribution all N), FILE being a distribution over shapes or over the compositions of two species saved by an earlier run, in a directory with lattice.in and no earlier results: enum.out holds only structures of the sizes A to B-1 and of the shapes or compositions in FILE, none twice, numbered from 1; without a number it holds every inequivalent structure of these sizes, shapes and compositions once (-sizes alone: the list of lattice.in with the sizes A to B-1; -filter conc alone: the list of lattice.in with the compositions of FILE; -filter shape: the structures whose supercell is represented in polya.out by an HNF of FILE). With a number the numbers of structures requested of each type satisfy the bounds of C75 taken over the selected types alone. If nothing is selected the program stops with a NameError, and if a size is asked for that lattice.in does not have with a ValueError.", "quantifier": "all lattice files of C57-C59 (with restrictions and displacements where no random search is needed), all sizes A and B, all filter files that are saved distributions, all numbers, random numbers, listing orders; all sufficiently small tolerances, and the tolerances of the code for decimal crystals", "why_tests_cant": "That a selection loses or repeats no structure for any crystal, range of sizes and filter file concerns infinitely many inputs; a test compares one run with one list.", "anchors": ["phenum/enumeration.py:_script_enum", "phenum/enumeration.py:_enum_in", "phenum/structures.py:make_enum_in", "phenum/structures.py:_distribution_summary", "phenum/enumeration.py:_enum_out"]}
{"id": "C83", "title": "Runs that are stopped", "statement": "enumeration.py -enum killed at any moment (or stopped by an exception), any number of times, in a directory without earlier results: (a) every file except the polya.out tables of the sizes in lattice.in, enum.in and enum.out is as before, and with the table of a size those of all smaller sizes exist; (b) after deleting enum.in and enum.out and counting again with -polya, -enum gives exactly what it would have given in the original directory; (c) if enum.in was complete, calling the program again gives exactly the files the stopped run would have given. What a user would like to hold but does not: calling -enum again in other cases need not give the full list. Stopped between two tables the second run ends normally and enum.out lists all structures of the sizes that had been counted, each once, and none of the others; stopped with the first j requests in enum.in it lists the structures of these only; stopped when a table has been opened and nothing written, every later run stops with an IndexError.", "quantifier": "all directories, histories of calls and options, stopping points (prefixes of each file being written), random numbers and listing orders for (a)-(c); for the lost sizes all lattice files of C57-C59 without random search, all sufficiently small tolerances, and the tolerances of the code for decimal crystals without restrictions", "why_tests_cant": "The stopping points of a run and the histories of stopped runs are unboundedly many; a test can kill the program at a few moments for a few inputs.", "anchors": ["phenum/enumeration.py:_polya_out", "phenum/enumeration.py:_enum_in", "phenum/enumeration.py:_enum_out", "phenum/structures.py:make_enum_in", "phenum/structures.py:_print_distribution", "phenum/io_utils.py:write_enum"]}
{"id": "C84", "title": "The text of POSCAR and config files", "statement": "The text of a POSCAR written by makeStr, read line by line, gives one title line, the scale rounded to two decimals, the three vectors of the cell and the positions in order rounded to eight decimals (never off by more than half a unit of the last decimal), and the exact numbers of atoms; the words of the title line are the element names (with -species), the words of the title of enum.out, `str #:` and the number of the structure. A config file to which any number of structures has been appended reads as these structures in this order: number of atoms, cell to six decimals, atoms with their numbers and species, positions to eight decimals, name. Names in a config file are one line, end with the number of the structure, and are different for different structures; for a random selection they are the element names and random_N. Defect: for another title without a colon the number is written twice (fcc7_7).", "quantifier": "all real numbers (whatever their size and sign), all numbers of atoms and species, all titles and element names, all sequences of structures", "why_tests_cant": "A test compares a few files. That numbers never run together, that every number can be read back to its last decimal whatever its size, and that appended structures can always be told apart, concerns all numbers and all sequences.", "anchors": ["phenum/io_utils.py:write_POSCAR", "phenum/io_utils.py:write_config", "phenum/element_data.py:get_lattice_parameter"]}
{"id": "C85", "title": "makeStr and the directory, also when it is stopped", "statement": "makeStr for POSCARs: after a run every structure read has its file, which holds its text whatever was there before, and no other file is changed; runs stopped at any moment, any number of times, do no harm: the same call made once more gives every file the contents a single undisturbed call would have given (the input file not being one of the files written). makeStr -config t: a run appends one structure for each structure read, in order, and changes no other file; stopped runs only extend the file, and one more call appends everything after what is there. What a user would like to hold but does not: a second call doubles the file; after a call stopped in the middle of a structure the same call ends without an error but leaves a file that cannot be read.", "quantifier": "all directories, options, random numbers, structures, stopping points (prefixes of the file being written) and histories of stopped calls", "why_tests_cant": "Stopping points and histories are unboundedly many; a test can stop a run at a few moments.", "anchors": ["phenum/phenumStr.py:_make_structures", "phenum/phenumStr.py:run", "phenum/io_utils.py:write_POSCAR", "phenum/io_utils.py:write_config"]}
{"id": "C86", "title": "From enum.out to a config file", "statement": "makeStr -config t without displacements on an enum.out written by the enumeration extends the config file by one structure for each row asked for, in order: its cell generates the superlattice of the row enlarged by the lattice parameter, its atoms are numbered from 1, and repeated with the cell they are the crystal of the row enlarged by the lattice parameter, with the species translated by -species_mapping if given.", "quantifier": "all enum.out files the enumeration writes whose rows can be mapped to real space, all selections, species, mappings, with or without reduction of the cell", "why_tests_cant": "It is a statement about every row of every enumeration; tests compare a few files.", "anchors": ["phenum/phenumStr.py:_make_structures", "phenum/io_utils.py:write_config", "phenum/vector_utils.py:map_enumStr_to_real_space", "phenum/vector_utils.py:cartesian2direct"]}
{"id": "C87", "title": "From lattice.in to POSCAR files on the disk", "statement": "phenum -enum on a lattice.in of a 3D crystal with two or three species followed by makeStr with the names of the elements: both come to their end, and makeStr changes no files but those of the POSCARs, which have different names. In each of these files one reads, to the decimals written (two for the scale, eight for cell and positions), with the names of the elements at the beginning of the title, a crystal of the kind asked for; and every crystal asked for is, up to a symmetry of the parent crystal, shown by exactly one file.", "quantifier": "all lattice.in of such crystals (within the sizes stated), with ranges of concentrations or without restrictions, exact input or input with rounding noise of the arithmetic, all directories, times, orders of listing, element names and output name patterns", "why_tests_cant": "A statement about all crystals and all files: every crystal is found exactly once. Tests look at a few small lattices.", "anchors": ["phenum/phenumeration.py:_script_enum", "phenum/phenumStr.py:_make_structures", "phenum/phenumStr.py:run", "phenum/io_utils.py:write_POSCAR", "phenum/io_utils.py:write_enum_struct"]}
{"id": "C88", "title": "From lattice.in to a config file", "statement": "phenum -enum on a lattice.in of a 3D crystal with two or three species followed by makeStr -config t (without displacements): both come to their end; the config file is extended by a text from which one reads a list of structures, and no other file is changed. Each structure describes a crystal of the kind asked for, enlarged by the lattice parameter, with the types given by -species_mapping if given, and every crystal asked for is, up to a symmetry of the parent crystal, described by exactly one of them.", "quantifier": "all lattice.in of such crystals (within the sizes stated), with ranges of concentrations or without restrictions, exact input or input with rounding noise, all directories and whatever the config file held before, all element names and injective mappings", "why_tests_cant": "A statement about all crystals: every one is found exactly once. Tests compare a few files.", "anchors": ["phenum/phenumeration.py:_script_enum", "phenum/phenumStr.py:_make_structures", "phenum/phenumStr.py:run", "phenum/io_utils.py:write_config"]}
{"id": "C89", "title": "The default call with displaced species lists every allowed crystal once", "statement": "phenum -enum without -super on a lattice.in with ranges of concentrations in which each species is displaced as a whole (fourth number 1) or not at all (0): the program comes to its end, the rows of enum.out are all different, each row describes a crystal in which exactly the atoms of the displaced species are moved along an axis (forwards or backwards) and the fractions of the species lie in the ranges, and every such crystal that is periodic with respect to some superlattice of at most the largest size is, up to a symmetry of the parent crystal, described by exactly one row - never twice, not even in different cells.", "quantifier": "all lattice.in of 3D crystals with two or three species and fewer than 12 sites per supercell, all ranges with a common denominator, all choices of displaced species, all directories, directory orders and random numbers; exact arithmetic with small tolerances, the tolerances of the code, and rounding errors below 1E-10", "why_tests_cant": "A statement about all decorations of a crystal with species and displacements: every one is found exactly once. Tests compare a few files.", "anchors": ["phenum/phenumeration.py:_script_enum", "phenum/enumeration.py:enum_sys", "phenum/tree.py:brancher", "phenum/tree.py:add_arrows"]}
{"id": "C90", "title": "What the default call lists when a part of the atoms of a species is displaced", "statement": "phenum -enum without -super on a lattice.in with ranges of concentrations and any fractions of displaced atoms: the program comes to its end; the rows of enum.out are all different, describe structures that were asked for and have no smaller period, and no structure is described by two rows; every such structure whose species, looked at without the displacements, have no smaller period either, is described by exactly one row. The remaining structures are not all there: a structure whose species alone have a smaller period and whose displaced atoms all move in the same direction has no row, although it has no smaller period, was asked for and is counted in polya.out.", "quantifier": "all lattice.in of 3D crystals with two or three species and fewer than 12 sites per supercell, all ranges with a common denominator, all fractions of displaced atoms, all directories, directory orders and random numbers; exact arithmetic with small tolerances, the tolerances of the code, and rounding errors below 1E-10", "why_tests_cant": "A statement about all decorations of a crystal: which are found exactly once, and which are never found. Tests compare a few files.", "anchors": ["phenum/phenumeration.py:_script_enum", "phenum/enumeration.py:enum_sys", "phenum/tree.py:brancher", "phenum/tree.py:add_arrows"]}
{"id": "C91", "title": "A command line means the options written on it", "statement": "Both programs understand their command line as the options written with their values: the order of the options, abbreviations that fit one option only, values joined by '=', loose values and unknown words make no difference; a switch is on exactly when it is given, an option with values has the values written or its default; makeStr takes the first values that belong to no option for the structure numbers.", "quantifier": "all command lines made of options in any order, unambiguous abbreviations, joined values, values that don't look like options (negative whole numbers included), unknown words and loose values", "why_tests_cant": "Tests call the functions with dictionaries; the statement ranges over all arrangements of the words of a command line.", "anchors": ["phenum/base.py:exhandler", "phenum/base.py:_common_parser", "phenum/enumeration.py:_parser_options", "phenum/enumeration.py:script_options", "phenum/phenumStr.py:_parser_options", "phenum/phenumStr.py:script_options"]}
{"id": "C92", "title": "From the words of the command line to the list of crystals", "statement": "However the options -enum and -lattice are written, enumeration.py in a fresh directory comes to its end, and enum.out has exactly one row for every crystal that lattice.in asks for and no other rows.", "quantifier": "all command lines with these options in the sense of C91, all lattice.in without restrictions of 3D crystals with up to three species and up to 20 sites per supercell, all directories, directory orders and random numbers, with the tolerances of the code", "why_tests_cant": "A statement about all crystals and all ways to write the call.", "anchors": ["phenum/enumeration.py:_parser_options", "phenum/enumeration.py:_script_enum", "phenum/base.py:exhandler"]}
{"id": "C93", "title": "Words of the command line that are not understood", "statement": "An unknown or misspelt option of enumeration.py is ignored with the values behind it: the call means the same as without it (so that `-enum --super` leaves the superperiodic structures out). An ambiguous abbreviation, an option without its value, and structure numbers of makeStr behind a list of elements stop the programs before they do anything. makeStr without -input ends with an error after any successful `enumeration.py -enum`, because it reads struct_enum.out and not enum.out. With -examples both programs show the help and end with an error, whatever else is written.", "quantifier": "all command lines into which a word is inserted between options; all command lines with an ambiguous word or an option without value; all directories without struct_enum.out and all successful runs", "why_tests_cant": "Ranges over all command lines and all runs; the tests never go through the parser.", "anchors": ["phenum/base.py:exhandler", "phenum/enumeration.py:_parser_options", "phenum/phenumStr.py:_parser_options", "phenum/phenumStr.py:script_options"]}
{"id": "C94", "title": "The input file for enum.x", "statement": "write_struct_enum writes a file struct_enum.in, and no other file, from which enum.x reads what read_lattice has read from lattice.in: bulk or surface, the three lattice vectors, the number of species, every site with its coordinates and all species allowed on it, the range of sizes, and the settings of a complete enumeration. The restrictions of the concentrations and the displacements are not part of it.", "quantifier": "all parameters with at least one species, in particular all that read_lattice returns for some text; all numbers of sites and species; all contents of the directory", "why_tests_cant": "Ranges over all lattices, numbers of sites and species; the tests compare one file.", "anchors": ["phenum/io_utils.py:write_struct_enum", "phenum/io_utils.py:read_lattice"]}
{"id": "C95", "title": "Search for an executable", "statement": "which(name) for a plain name returns the file of that name in the first directory of PATH where it is an executable, and None exactly if it is not an executable in any of them; a name with a directory that is an executable is returned as it is. Whatever it returns is an executable. An entry of PATH in quotation marks stands for the directory between them, and an absolute name is not searched for in PATH.", "quantifier": "all names, all values of PATH, all sets of executable files", "why_tests_cant": "Ranges over all PATHs and file systems; the tests run on one machine.", "anchors": ["phenum/io_utils.py:which"]}
{"id": "C96", "title": "Counts read from struct_enum.out", "statement": "_read_struct_enum gives, for every size, every HNF and every pair of numbers of atoms of the two species, how many of the lines behind the first seventeen lines of struct_enum.out have them, and has no entry for those that don't occur.", "quantifier": "all files with seventeen lines of header and any number of lines in the format of enum.x", "why_tests_cant": "Ranges over all files; the function has no test at all (no cover).", "anchors": ["phenum/structures.py:_read_struct_enum"]}
{"id": "C97", "title": "A whole session from the words of two command lines to the crystals on the disk", "statement": "However `enumeration.py -enum [-lattice file]` and then `makeStr.py all -input enum.out -species ...` are written (order of the options, abbreviations, values joined by '=', further options of the right form), both runs come to their end, and afterwards each POSCAR on the disk, read back, shows a crystal of the kind that lattice.in asks for, every such crystal is shown by exactly one POSCAR up to a symmetry of the parent crystal, and no other file is changed; with -config t the same holds for the structures appended to the config file.", "quantifier": "all pairs of command lines of this form, all lattice.in (with ranges of concentrations or without restrictions) of 3D crystals with up to three species and up to 18 sites per supercell for which the reduction of cells ends, all directories, directory orders and random numbers, with the tolerances of the code", "why_tests_cant": "A statement about all crystals, all inputs and all ways to write two calls; the tests never run the programs one after the other from the command line.", "anchors": ["phenum/enumeration.py:_script_enum", "phenum/phenumStr.py:_make_structures", "phenum/phenumStr.py:run", "phenum/base.py:exhandler"]}
{"id": "C98", "title": "Basis vectors of lattice.in outside of the cell", "statement": "If the basis vectors of two lattice.in files differ by lattice vectors and the files agree otherwise, enumeration.py ends in the same way on both, leaves the same files, and the rows of enum.out are the same; they list every crystal exactly once with respect to the vectors in the cell. The first lines of enum.out however give the vectors as in lattice.in (negative part: for a crystal with two atoms, the second given outside of the cell, two different rows read with the vectors of their own file describe the same crystal up to a symmetry).", "quantifier": "all pairs of such lattice.in files with vectors on a grid the tolerances resolve, all calls with -enum, all directories, directory orders and random numbers", "why_tests_cant": "The tests only use basis vectors inside of the cell; the meaning of every row for every such input is a statement about all crystals and their symmetries.", "anchors": ["phenum/grouptheory.py:get_sym_group", "phenum/HNFs.py:get_HNFs", "phenum/symmetry.py:bring_into_cell", "phenum/enumeration.py:_enum_out", "phenum/io_utils.py:write_enum"]}
{"id": "C99", "title": "A request with the group read from a file", "statement": "If the first argument of enum_sys names a file in the format of enum.x that holds a group of permutations of the sites, a request without displaced atoms returns structures of the right composition, pairwise inequivalent under the permutations of the file, as many as wanted or all of them; without superperiodic structures a request for all returns one of each class of those that are not superperiodic (the translations coming first in the file). With displaced atoms this fails: for one species the number of structures is reported as one for any group and a request for two or more raises IndexError.", "quantifier": "all such files (widths of the columns, line breaks, six lines of heading, groups), concentrations, numbers wanted and random numbers", "why_tests_cant": "The tests read three files with cyclic and dihedral groups; the claim is about all groups, compositions and shuffles, and the failure with displaced atoms is one for every group.", "anchors": ["phenum/phonons.py:enum_sys", "phenum/io_utils.py:read_group"]}
{"id": "C100", "title": "The sequences of exponents of one factor", "statement": "Sequence(root, possibles, 1, powersum, targets) for a factor (x_1^p+...+x_k^p)^e: expand() lists every sequence of multiples of p that begins with root, does not exceed the targets after the first variable and has a sum of at most p*e, each exactly once; for two or more variables kidcount is the number of these sequences and expand_noappend([], 0, 1) returns the same list in the same order, never writing outside of its table; for one variable it raises ValueError.", "quantifier": "all powers, exponents, roots and targets", "why_tests_cant": "There are infinitely many factors and targets; kidcount and expand_noappend are excluded from the coverage of the tests.", "anchors": ["phenum/polyaburnside.py:Sequence.expand", "phenum/polyaburnside.py:Sequence.kidcount", "phenum/polyaburnside.py:Sequence.expand_noappend"]}
{"id": "C101", "title": "What an acceptance rate does", "statement": "An acceptance rate given to a request for structures (enum.x -enum -acceptrate r, or accept of enum_sys) has no effect if no atoms are displaced, there are at least two species, and fewer than a million structures exist or no proper part of them is wanted: same structures, same errors, for every group, every rate and all random numbers; so enum.out is the same file with and without it. (Defect) If a million or more inequivalent structures exist and a proper part of them, at least one, is wanted - the case the option is meant for - the request returns no structure and raises no error, whatever the rate. For one species with every atom displaced, the structures whose draw is accepted are kept and the first of them, up to the number wanted, returned: inequivalent structures, perhaps fewer than wanted, even none, without an error. With two or more species and displaced atoms, where fewer than a million structures exist or no proper part is wanted, the request returns without an error some of the inequivalent structures, in the order of the full list and at most as many as wanted; none, if no draw is accepted.", "quantifier": "all groups of the sites, compositions, numbers of structures wanted, rates and random numbers; all files of systems", "why_tests_cant": "The branch is excluded from the coverage of the tests because it takes too long to run; it depends on random numbers.", "anchors": ["phenum/tree.py:brancher", "phenum/phonons.py:enum_sys", "phenum/phonons.py:add_arrows", "phenum/enumeration.py:_enum_out"]}
{"id": "C102", "title": "The warnings", "statement": "Warnings (messages of level 0) are shown only with -verbose and change nothing that is computed. With -verbose: a request (of two or more species, or of one species with every atom displaced) that is not a small sample of a large system warns, superperiodic structures kept, exactly when more structures are wanted than there are inequivalent ones, that is exactly when fewer are returned than wanted; a distribution over consistent tables warns when more structures are wanted than there are, and when more are returned than wanted ('should not be possible', which happens); a run of -enum whose input file does not exist says so. The option -verbose switches them on for the rest of the run. (Defects) With superperiodic structures left out, or for a small sample of a large system, fewer structures than wanted are returned without a warning; a distribution that falls short never warns (the test of the limit of the loop can never hold); the warning of an atom outside of the cell is never shown for the lists of numbers of lattice.in, only for two-dimensional arrays.", "quantifier": "all settings of the messages with and without -verbose, groups, compositions, numbers wanted, random numbers, consistent tables, bases and tolerances", "why_tests_cant": "The warnings depend on numbers of inequivalent structures and on random draws; that a warning never appears cannot be tested.", "anchors": ["phenum/phonons.py:enum_sys", "phenum/structures.py:_distribute", "phenum/HNFs.py:get_HNFs", "phenum/grouptheory.py:get_sym_group", "phenum/enumeration.py:_script_enum", "phenum/msg.py:warn"]}
