import json
P=[]
def p(id,title,statement,quant,why,anchors):
    P.append(dict(id=id,title=title,statement=statement,quantifier=quant,why_tests_cant=why,anchors=anchors))
U="src/nimble_utils.h"
p("C01","Parallel vector reduction sums every shared node exactly once",
"After VectorCommunicator::Initialize has been called on every rank with that rank's list of (pairwise distinct) global node ids, a call of VectorReduction(d, data) with d in {1,2,3} leaves, on every rank and for every component, the value of each node equal to the sum over exactly the ranks that hold that global node of the values they held before the call; nodes held by one rank only are unchanged. This is independent of the order in which the outstanding non-blocking reductions complete.",
"every number of ranks, every assignment of global node ids to ranks (distinct within a rank), every data array, field size 1..3 and every completion schedule of the asynchronous reductions",
"The number of ranks, the overlap pattern of the partition and the completion order of MPI_Iallreduce are unbounded; a test fixes one partition and one schedule.",
["src/nimble.mpi.reduction.h: ReductionInfo::ReductionInfo, Reduce, PerformReduction","src/nimble.mpi.reduction.cc: GenerateReductionInfo","src/nimble.mpi.rank_clique_reducer.h: ReductionClique_t::pack/unpack","src/nimble_vector_communicator.h: VectorReduction"])
p("C02","Clique numbering separates nodes exactly by the set of ranks that share them",
"When every rank's id list has no duplicates, two global ids receive the same clique number iff they occur on exactly the same set of ranks; an id gets a number in 1..num_ranks iff it occurs on one rank only (and then the number is that rank plus one); and the returned clique count is strictly larger than every number assigned.",
"every list of id lists, one per rank, of any lengths",
"A partition-refinement loop with renumbering: correctness needs an invariant over all prefixes of all rank lists.",
["src/nimble.mpi.reduction.h: fill_clique_lookup","src/nimble.quanta.h: invoke_counter_t, remap"])
p("C03","PackIDSpace is a consistent, dense renumbering",
"PackIDSpace maps equal raw ids to equal new ids and different raw ids to different new ids, on all ranks consistently, and the set of new ids used over all ranks is exactly 0..m-1 where m is the number of distinct raw ids.",
"every number of ranks and every raw id list on each rank",
"Unbounded number of ranks and ids; a test only sees a few id lists.",
["src/nimble.mpi.reduction_utils.cc: PackIDSpace"])
p("C04","GroupConsecutive is an exact run-length grouping",
"GroupConsecutive(lst) returns groups such that expanding every group back to (key,value) pairs in order reproduces lst, no group is empty, and consecutive groups have different keys.",
"every list of key/value pairs over any key type with decidable equality",
"Off-by-one errors in the two-pass scan show only for particular run layouts.",
["src/nimble.mpi.reduction_utils.h: GroupConsecutive"])
p("C05","Serialization round trip",
"For every object built from POD values, std::pair, std::array and (nested) std::vector, serialization::pack writes exactly size(object) bytes inside the destination buffer, and serialization::unpack applied to that buffer yields an equal object and consumes exactly the same number of bytes, whatever bytes follow.",
"every nested shape and every value",
"The shapes are an inductive family; round-trip must hold for all nestings and all lengths.",
["src/nimble.mpi.serialization.h: serial<...>::size/pack/unpack, pack, pack_avoid_resize, unpack"])
p("C06","Gathered text is the rank-ordered concatenation",
"On the root, catenate_gatherv returns the concatenation of all ranks' strings in rank order, and catenate_gatherv_format returns start + join(separator, strings) + end, with every byte of the result written and no write outside the result.",
"every number of ranks (at least one) and all strings",
"Displacement arithmetic must be right for all combinations of string lengths.",
["src/nimble.mpi.mpicontext.h: catenate_gatherv, catenate_gatherv_format"])
p("C07","mpicontext::gather returns each rank's own vector",
"On the root, gather(source, root)[r] equals the vector contributed by rank r, for every r. (The code violates this when ranks contribute different lengths.)",
"every number of ranks and every family of contributed vectors",
"Equal-length contributions, which tests tend to use, hide the defect.",
["src/nimble.mpi.mpicontext.h: gather"])
p("C08","sendpacked transmits only bytes of its own buffer",
"sendpacked(source, rank, tag) never hands MPI a count that exceeds the number of ints in the serialization buffer. (The code passes the size in bytes as a count of ints.)",
"every object and every previous history of the shared serialization buffer",
"Depends on the history of the shared static buffer and on the object size.",
["src/nimble.mpi.mpicontext.h: sendpacked","src/nimble.mpi.serialization.h: pack_avoid_resize"])
p("C09","Contact forces are self-equilibrated",
"Enforcing any number of node-face contact interactions adds to the contact force vector a total force of zero in every direction, provided the facet coordinates passed for each interaction sum to one; nodes not belonging to an enforced node or face receive no contribution; and the result does not depend on the order of the interactions.",
"every list of interactions, every geometry, every penalty parameter, every processing order",
"Newton's third law must hold for all interaction sets and all schedules of the concurrent scatter.",
["src/nimble_contact_manager.h: PenaltyContactEnforcement::EnforceContact, details::getContactForce","src/nimble_contact_entity.h: SetNodalContactForces, ScatterForceToContactManagerForceVector"])
p("C10","Node-to-face projection decomposes the node position",
"For a non-degenerate triangle, Projection returns coordinates N summing to one and a unit normal such that node = N0*v1 + N1*v2 + N2*v3 + gap*normal; the node is reported in contact only if all N lie in the tolerance-extended [0,1] range and the gap is negative and smaller in magnitude than the characteristic length.",
"every node position and every non-degenerate triangle",
"Real-valued geometry: infinitely many configurations.",
["src/nimble_contact_manager.cc: ContactManager::Projection"])
p("C11","Skinning keeps exactly the faces that belong to one element",
"SkinBlocks returns exactly the hex faces whose node set occurs once among all faces of the selected blocks' elements; it aborts iff some node set occurs more than twice; every returned face keeps the node ordering of its element and the id of its element and face ordinal.",
"every mesh connectivity",
"Arbitrary meshes.",
["src/nimble_contact_manager.cc: ContactManager::SkinBlocks"])
p("C12","Contact entity ids are unique and decodable",
"Two contact triangles created from the same mesh have equal contact entity ids iff they come from the same element, the same face and the same triangle ordinal; the element id, face ordinal and triangle ordinal can be recovered from the id.",
"all element ids for which the id does not overflow int, all faces, all triangles",
"Bit packing must be injective on the whole range.",
["src/nimble_contact_manager.cc: SkinBlocks, CreateContactNodesAndFaces","src/nimble_contact_entity.h: contact_entity_global_id_"])
p("C13","Contact-face serialization round trip",
"UnserializeContactFaces applied to the buffer produced by SerializeContactFaces restores, for every face, coordinates, characteristic length, global id and all six node ids, with the bounding box recomputed from them, and every access stays inside the buffer.",
"every list of contact faces",
"All list lengths and all values.",
["src/nimble_contact_entity.h: SerializeContactFaces, UnserializeContactFaces"])
p("C14","Entity bounding boxes contain the entity and contact search misses no shallow penetration",
"After SetBoundingBox the box of a contact entity contains every vertex (hence every point of the triangle) with margin 0.15 times its characteristic length. Consequently a node whose distance to some point of a face is at most 0.15 times the sum of both characteristic lengths in each coordinate has a box that intersects the face's box.",
"every triangle/node coordinates and every non-negative characteristic length",
"Real-valued geometry.",
["src/nimble_contact_entity.cc: ContactEntity::SetBoundingBox","src/contact/arborx_utils.h"])
p("C15","Contact commands are parsed to the blocks and penalty the user wrote",
"ParseContactCommand applied to a well-formed command (key words primary_blocks/master_blocks, secondary_blocks/slave_blocks and penalty_parameter with names and a number between them, in any white space layout) returns exactly the listed names and number; a command missing one of the three parts is rejected.",
"every list of block names (not key words) and every number",
"Token loops with stream-state conditions: needs all list lengths.",
["src/nimble_contact_manager.cc: ParseContactCommand"])
p("C16","LU factorization and solve",
"For every nonsingular n x n matrix A, LU_Decompose completes without reporting an error, and LU_Solve applied to b with the returned factors and permutation returns x with A x = b (likewise LU_SolveSystem).",
"every n >= 1, every matrix and right-hand side over the (exact) reals",
"All sizes and all matrices.",
[U+": LU_Decompose, LU_Solve"])
p("C17","Singular matrices are reported by LU_Decompose",
"LU_Decompose reports an error for every singular matrix. (The code does not: the pivot row index is not reset for each column.)",
"every singular square matrix",
"Only particular singular matrices trigger the stale pivot.",
[U+": LU_Decompose"])
p("C18","CRS matrix element access",
"After AllocateNonzeros(i_index, j_index) with a row-major sorted duplicate-free structure in which every row has an entry, operator()(i,j) reaches the storage slot of entry (i,j) for every listed pair, distinct pairs have distinct slots, and an unlisted pair raises an error; the search always terminates.",
"every matrix size and every admissible sparsity pattern",
"Binary search over arbitrary patterns.",
["src/nimble_linear_solver.cc: CRSMatrixContainer::AllocateNonzeros, FindIndex"])
p("C19","CRS matrix-vector product",
"MatVec(vec, result) yields result[i] = sum over j of A(i,j) vec[j], where absent entries count as zero; and DiagonalMatrixMatVec multiplies by the diagonal.",
"every matrix and vector",
"All sizes and patterns.",
["src/nimble_linear_solver.cc: CRSMatrixContainer::MatVec, DiagonalMatrixMatVec"])
p("C20","Dirichlet rows and columns of the tangent stiffness",
"After BoundaryConditionManager::ModifyTangentStiffnessMatrix, for each constrained degree of freedom d the matrix row d and column d are zero except A(d,d) which has its prescribed diagonal value, all entries whose row and column are unconstrained are unchanged, so that the solution of the linear system has zero increment at d whenever the modified right-hand side is zero there.",
"every matrix, every set of constrained degrees of freedom",
"All matrices and sets.",
["src/nimble_boundary_condition_manager.h: ModifyTangentStiffnessMatrix, ModifyRHSForKinematicBC","src/nimble_linear_solver.cc: SetRowValues, SetColumnValues"])
p("C21","The tangent sparsity pattern is complete, sorted and symmetric",
"DetermineTangentMatrixNonzeroStructure returns a list of (i,j) pairs that is strictly increasing in row-major order, contains (i,j) iff the nodes of degrees of freedom i and j share an element (so it is symmetric and contains every entry that assembly touches).",
"every mesh connectivity",
"Arbitrary meshes.",
["src/nimble_mesh_utils.cc: DetermineTangentMatrixNonzeroStructure","src/nimble_linear_solver.cc"])
p("C22","Conjugate gradient solves symmetric positive definite systems",
"For a symmetric positive definite matrix CG_SolveSystem never divides by zero and stops after at most as many iterations as there are unknowns; during the whole iteration the stored residual equals b - A x (exact arithmetic); when it reports success the preconditioned residual satisfies the relative tolerance; an iteration limit above the number of unknowns guarantees success, and with tolerance zero the exact solution.",
"every symmetric positive definite sparse matrix, right-hand side, first guess, scratch space, tolerance and iteration limit",
"Unbounded iterations.",
["src/nimble_linear_solver.cc: CG_SolveSystem"])
p("C23","Hex shape functions form a partition of unity",
"At every point the eight shape functions sum to one and their derivatives sum to zero; at node k function k is one and the others zero; the derivative table used by the element equals the exact derivative of the shape functions at the integration points.",
"every natural coordinate triple",
"Continuum of points.",
["src/nimble_element.cc: HexElement::ShapeFunctionValues, ShapeFunctionDerivatives"])
p("C24","Deformation gradients are exact for affine motions",
"If the current coordinates of a (non-degenerate) element are A X + c of its reference coordinates, ComputeDeformationGradients returns A at every integration point, stored in the documented component order; hence rigid translations give the identity and rotations give that rotation.",
"every non-degenerate hexahedron and every affine motion",
"Continuum of geometries and motions.",
["src/nimble_element.cc: HexElement::ComputeDeformationGradients"])
p("C25","Element nodal forces are self-equilibrated",
"For every element geometry and stress state the nodal forces from ComputeNodalForces sum to zero in each direction, and (the stress being symmetric) their total moment about any point vanishes.",
"every element geometry and every integration-point stress",
"Continuum of inputs; conservation laws.",
["src/nimble_element.cc: HexElement::ComputeNodalForces"])
p("C26","Lumped mass conserves mass",
"The lumped nodal masses returned by ComputeLumpedMass sum to density times the quadrature volume of the element, and after assembly the sum over all nodes equals the sum over all elements.",
"every mesh, geometry and density",
"All meshes.",
["src/nimble_element.cc: HexElement::ComputeLumpedMass, ComputeConsistentMass","src/nimble_block.cc: Block::ComputeLumpedMassMatrix"])
p("C27","Element tangent is symmetric and annihilates translations",
"For a symmetric material tangent the element tangent stiffness is symmetric; every row sums to zero over the nodes for each direction (rigid translation produces no force).",
"every element geometry and every symmetric material tangent",
"Continuum of inputs.",
["src/nimble_element.cc: HexElement::ComputeTangent"])
p("C28","The critical time step does not depend on where the mesh is",
"ComputeCharacteristicLength of a translated element equals that of the original. (The code violates this for elements with all-negative coordinates.)",
"every element and every translation",
"Typical test meshes contain the origin or positive coordinates only.",
["src/nimble_element.cc: HexElement::ComputeCharacteristicLength","src/nimble_block_base.cc: BlockBase::ComputeCriticalTimeStep"])
p("C29","Volume averages of a uniform field return the field",
"ComputeVolumeAverage of integration point data that is equal at all integration points returns that value, and every average lies between the smallest and largest integration point value when all Jacobians are positive; the reported volume is the sum of integration point volumes.",
"every element geometry with nonzero volume and every field",
"Continuum of inputs.",
["src/nimble_element.cc: HexElement::ComputeVolumeAverage"])
p("C30","Constitutive laws: stress-free reference state and objectivity",
"The elastic and neo-Hookean materials return zero stress for the identity deformation gradient; the neo-Hookean stress is objective (sigma(QF) = Q sigma(F) Q^T for rotations Q) ; its pressure is bulk modulus times (J - 1/J)/2; the elastic stress depends linearly and isotropically on the small strain.",
"every deformation gradient with positive determinant, every rotation, all moduli",
"Continuum of inputs.",
["src/nimble_material.cc: ElasticMaterial::GetStress, NeohookeanMaterial::GetStress"])
p("C31","Off-nominal evaluations leave the material unchanged",
"GetOffNominalStress(K,G,...) returns the stress the same material would return if it had been constructed with moduli K,G, and every later GetStress call gives the nominal result.",
"every sequence of nominal and off-nominal calls",
"Histories.",
["src/nimble_material.h: GetOffNominalStress","src/nimble_material.cc"])
p("C32","Material parameter strings",
"For a line consisting of a known model name followed by name/value pairs with distinct valid names, the parser yields exactly that map; an unknown parameter name or a non-numeric value raises an error; a trailing name without value must be rejected. (The code reads past the token list in the last case.)",
"every parameter string",
"All token sequences.",
["src/nimble_material_factory_base.cc: MaterialFactoryBase::ParseMaterialParametersString","src/nimble_parser_util.h: tokenize_string"])
p("C33","Integration-point labels round trip",
"For every integration point number below 100 and every label, AddIntegrationPointPrefix followed by RemoveIntegrationPointPrefix returns the label, HasIntegrationPointPrefix holds and LabelToIntegrationPointNumber returns the number; different (number,label) pairs get different prefixed labels.",
"every label string and integration point number 0..99",
"All strings.",
["src/nimble_data_utils.cc: AddIntegrationPointPrefix, RemoveIntegrationPointPrefix, HasIntegrationPointPrefix, LabelToIntegrationPointNumber"])
p("C34","Component labels are distinct and match single-label lookup",
"GetComponentLabels(label, length, dim) has LengthToInt(length, dim) entries, pairwise distinct, whose i-th entry for the label with an integration point prefix equals GetComponentLabel(label, length, dim, i, ipt). (Violated for 2D full tensors and for fields of generic length.)",
"every label and every length/dimension combination",
"All strings; all combinations of enum and dimension.",
["src/nimble_data_utils.cc: GetComponentLabels, GetComponentLabel, LengthToInt"])
p("C35","Field identifiers are stable and unique",
"In every history of AllocateNodeData / DeclareElementData calls, ids are 0..n-1 in order of first allocation, equal labels up to letter case share one id, different labels never do, a later allocation never changes an earlier id, and re-declaring a label with another length or relation aborts. GetFieldId finds the id of every declared spelling that was first used and returns -1 for unknown labels.",
"every sequence of declarations",
"Histories.",
["src/nimble_model_data.cc: AssignFieldId, GetFieldId, AllocateNodeData, DeclareElementData"])
p("C36","Per-component output arrays hold the field's values",
"The output arrays produced for node and element fields contain, for each requested component label and entity, exactly the stored value of that component: output[i] = data[i*num_components + component].",
"every field, component and number of entities",
"All sizes.",
["src/nimble_model_data.cc: GetNodeDataComponent, GetNodeDataForOutput, GetElementDataForOutput"])
p("C37","Initial values of material state variables are applied",
"After InitializeElementData every integration point of every element holds, for each material state variable, the material's initial value and unit diagonal deformation gradients. (The code looks the initial value up under the prefixed label, so state variables are never initialised from the material.)",
"every block, number of elements and material state variable list",
"Shipped materials have no state variables, so tests never reach the code.",
["src/nimble_block.cc: Block::InitializeElementData"])
p("C38","Input decks: comments, blank lines and key/value lines",
"Reading a deck never loops forever and never raises an unrelated exception because of blank, whitespace-only or comment lines; every 'key: value' line yields that key and value trimmed of surrounding white space. (Violated for whitespace-only lines, indented comments and lines of 1000 or more characters.)",
"every text file",
"All files.",
["src/nimble_parser.cc: Parser::ReadFile, ParseKeyValue"])
p("C39","Output file names are distinct per rank",
"For a fixed base name and label in a run with n>1 ranks, IOFileName returns different names on different ranks, all of the form base.label.extension.n.r with r zero-padded to the width of n, so that they sort in rank order; with one rank no suffix is added. (Violated for names containing white space.)",
"every base name, extension, label, number of ranks and rank below it",
"All strings and rank counts.",
["src/nimble_parser.cc: IOFileName, IOFileNameThreadSafe"])
p("C40","Prescribed displacements are met exactly at the end of every explicit step",
"In explicit integration, at the end of each step the displacement of every node in a prescribed-displacement set equals the prescribed function at the new time, for every node, coordinate and step, regardless of the forces.",
"every force history, number of steps and expression, provided no other condition constrains the same degree of freedom",
"All step counts and force laws.",
["src/nimble_boundary_condition_manager.h: ApplyKinematicBC","src/integrators/explicit_time_integrator.cc: Integrate"])
p("C41","Prescribed velocities hold throughout",
"After every half step the velocity of a node in a prescribed-velocity set, as seen in the velocity field at the end of every step and in every output, equals the prescribed value at the current time, the displacement accumulated over the run is the sum of dt times these values, and unconstrained degrees of freedom are never modified by boundary conditions.",
"every history",
"All step counts.",
["src/nimble_boundary_condition_manager.h: ApplyKinematicBC, ApplyInitialConditions"])
p("C42","Explicit time stepping visits the requested times and output steps",
"With n load steps from t0 to tf the integrator performs exactly n steps with times t0 + k (tf-t0)/n, ends at tf, and writes output exactly for the initial state (always), the steps whose index counted from 0 is divisible by the output frequency, and the final step; with frequency 0 nothing but the initial state is written; tf < t0 is rejected.",
"every n, t0, tf and output frequency",
"All n.",
["src/integrators/explicit_time_integrator.cc: Integrate"])
p("C43","Explicit integration conserves linear momentum of an unconstrained body",
"With self-equilibrated nodal forces (as delivered by internal and contact force evaluation), no boundary conditions and positive masses, total linear momentum is the same after every step, for any number of steps and any time step.",
"every mesh, force law with zero resultant, number of steps",
"Inductive over steps.",
["src/integrators: ExplicitTimeIntegrator","src/nimble_block.cc: ComputeInternalForce"])
p("C44","Explicit step is velocity Verlet, time reversible in exact arithmetic",
"One explicit step without constraints maps (u,v) to (u + dt v + dt^2/2 a(u), v + dt/2 (a(u)+a(u'))) and stepping with -dt from the result returns the initial state.",
"every acceleration law and state",
"Continuum of states.",
["src/integrators: ExplicitTimeIntegrator"])
p("C45","Assembly of internal force equals the sum over elements, in any element order",
"ComputeInternalForce adds to each node exactly the sum of the contributions of the elements containing it, independent of the order of blocks and elements; nodes outside all elements get zero.",
"every mesh and element force function",
"All meshes and orders.",
["src/nimble_block.cc: Block::ComputeInternalForce","src/nimble_model_data.cc: ModelData::ComputeInternalForce"])
p("C46","Quasistatic convergence is checked over all degrees of freedom",
"When the quasistatic solver declares convergence, the residual norm over all unconstrained degrees of freedom is below the tolerance. (Violated: the norm loop runs over the number of nodes only.)",
"every residual vector",
"A test whose residual is concentrated in the first third of the degrees of freedom cannot see it.",
["src/integrators: QuasistaticTimeIntegrator, ComputeQuasistaticResidual"])
p("C47","Boundary expressions: printing and re-parsing",
"Every fully parenthesised expression over numbers, x, y, z, t, operators and functions evaluates, after parsing by the expression parser, to the mathematical value of the expression, provided whole-number exponents fit an int (\"x^(4294967296)\" is x^0).",
"every expression tree and every x, y, z, t",
"Inductive family of inputs.",
["src/nimble_expression_parser.cc: ParseEquation","src/nimble_expression_parser.h: BoundaryExpression::eval"])
p("C48","Expression optimisation preserves values",
"Optimising a parsed expression (constant folding, reference and simplification rewrites) does not change its value for any x, y, z, t.",
"every expression tree and every argument",
"Inductive family.",
["src/nimble_expression_parser.h: optimize"])
p("C49","Expression precedence follows conventional mathematics",
"An expression without parentheses is parsed with the conventional precedence and associativity. (Violated, e.g. by 't - 2*1e-3' and '-x^2'.)",
"every unparenthesised expression",
"Infinite family; violations need particular operator neighbours.",
["src/nimble_expression_parser.cc"])
p("C50","Expression parsing stays inside the input string",
"Parsing never reads outside the expression text and ends, whatever the text. (Violated for conditions that are empty, start with '=' or use '!'; one text with '!' makes the parser recurse forever.)",
"every input string",
"All strings.",
["src/nimble_expression_parser.cc: ParseEquation, Reader"])
p("C51","UQ closure is the stated interpolation of exact forces",
"After ApplyClosure every approximate sample's force is c0 * nominal + sum_k c_k * exact_k componentwise, the nominal and exact forces are unchanged, and earlier values of the approximate forces do not matter.",
"every number of samples, coefficients and force vectors",
"All sizes.",
["src/uq/nimble_uq.cc: UqModel::ApplyClosure"])
p("C52","UQ parameter samples are nominal plus scaled deviation",
"After ScaleParameters, sample s of parameter p of block b equals nominal + uncertainty*xi for every (distinct) uncertain parameter, and all other parameters keep their nominal value.",
"every number of blocks, parameters and samples",
"All sizes.",
["src/uq/nimble_uq.cc: UqModel::ScaleParameters, ParseBlockInput"])
p("C53","UQ internal force reduction stays in range",
"The parallel reduction of the UQ sample forces only touches existing sample force arrays. (Violated when there are no approximate samples.)",
"every number of exact and approximate samples",
"Depends on the sample file.",
["src/uq/nimble_uq_model_data.cc: ComputeInternalForce"])
p("C54","Small-tensor algebra agrees with matrix algebra",
"The component-wise tensor routines (products, squares, rotation and un-rotation, symmetric/skew parts, traces, determinant, inverse) compute the corresponding 3x3 matrix operations in the documented component order; inverse times matrix is the identity whenever the determinant is positive; unrotate undoes rotate.",
"every 3x3 tensor",
"Continuum of inputs; nine-fold index tables.",
[U+": Mult_Full33_Full33, Square_Full33_Full33, Rotate_Sym33_Using_Rtranspose_S_R, Invert_Full33, ..."])
p("C55","Polar decomposition",
"In real arithmetic: Eigen_Sym33_NonUnit returns nonzero, mutually orthogonal vectors and numbers that are the exact eigensystem of a symmetric tensor within 1e-15 (relative) of its argument; Cos_Of_Acos_Divided_By_3 is accurate to 2e-16; Polar_Decomp and Polar_Left_LogV_Lame return V symmetric positive definite, R a rotation, F = V R, V V = F F^T and (the latter) the logarithm of V, each exactly or with an explicit error of 1e-15 times a condition number; if cos(acos(x)/3) is evaluated exactly, all of this holds without error.",
"every symmetric tensor; every deformation gradient with positive determinant (and, for the error bounds, condition number squared below 1e15)",
"Continuum of inputs; the accuracy of a rational approximation on an interval cannot be settled by samples.",
[U+": Cos_Of_Acos_Divided_By_3, Eigen_Sym33_NonUnit, Polar_Decomp, Polar_Left_LogV_Lame"])
p("C56","String comparison",
"StringsAreEqual(a,b) holds iff a and b are the same string. (Violated: only the common prefix is compared.)",
"every pair of strings",
"All strings.",
[U+": StringsAreEqual"])
p("C57","Views address every entry once",
"For the views handed out by the serial ModelData (rows of three numbers) the index map (i,j) -> storage is a bijection onto the array; zero(), copy() and AXPY updates touch each entry exactly once; update with alpha and a second view computes entrywise sum.",
"every length and stride produced by ModelData",
"All sizes.",
["src/nimble_view.h: Viewify"])
p("C58","Mesh lookups by block name",
"BlockNamesToOnProcessorBlockIds returns exactly the ids of the named blocks that are present on this processor, in order; unknown names are rejected.",
"every mesh and every name list",
"All meshes.",
["src/nimble_genesis_mesh.cc: BlockNamesToOnProcessorBlockIds, HasBlock, GetBlockId"])
p("C59","Node set bounding and ids in submodels",
"The contact sub-model renumbers exactly the nodes used by the contact faces and nodes: the map is a bijection between 0..m-1 and the used nodes, coordinates and ids are preserved, and every face refers to its original nodes through the map.",
"every mesh and block selection",
"All meshes.",
["src/nimble_contact_manager.cc: CreateContactEntities"])
p("C60","Displacements are mapped into and forces out of the contact model consistently",
"ApplyDisplacements sets every contact node's position to its model coordinate plus the displacement of its mesh node, and GetForces writes each contact force back to the same mesh node; other nodes' contact force is untouched.",
"every map and displacement field",
"All sizes.",
["src/nimble_contact_manager.cc: ApplyDisplacements, GetForces"])
p("C61","Partition boundary nodes and their owner",
"GetPartitionBoundaryNodeLocalIds (MPI build) lists a local node exactly once if its global node is held by at least two ranks, and not at all otherwise, and pairs it with the smallest rank that holds the node.",
"every number of ranks and every assignment of distinct global node ids",
"Depends on the whole partition; a test fixes one partition.",
["src/nimble_vector_communicator.h: GetPartitionBoundaryNodeLocalIds","src/nimble.mpi.reduction.h: ReductionInfo::GetAllIndices","src/nimble.mpi.rank_clique_reducer.h: GetMPICommWorldRanks"])
p("C62","Element data offsets address the intended slots",
"For a block with any number of integration points and any material state variables whose names clash neither with each other nor with tensor component names, the element data labels are pairwise distinct, determining the data offsets never aborts, and the offsets used to read and write the deformation gradient, the stress and the state variables of an integration point are exactly the consecutive slots that carry these labels.",
"every number of integration points and every list of state variable names",
"Depends on all label lists.",
["src/nimble_block.cc: Block::GetDataLabelsAndLengths, DetermineDataOffsets","src/nimble_model_data.cc: AllocateElementData"])
p("C63","Requested output fields are resolved to existing data",
"If SpecifyOutputFields accepts a request, every requested name is a known node or element quantity, a component of one, or the volume; every label recorded for output exists (on the block for which it is recorded), so writing output cannot abort; a requested node field is recorded with all its components and a requested element quantity with all its components on every block that has it.",
"every field registry, block list and request string",
"All registries and requests.",
["src/nimble_model_data.cc: SpecifyOutputFields, GetElementDataForOutput"])
p("C64","The assembled tangent is the sum of the element tangents",
"With the sparsity structure determined from the mesh, adding all element tangents into the compressed-row matrix never fails, increases each entry by exactly the sum of the matching entries of all element tangents, and does not depend on the order of the elements.",
"every mesh in which each linear-system node is used by an element, every numbering, every set of element tangents",
"All meshes and numberings.",
["src/nimble_block_base.cc: ComputeTangentStiffnessMatrix","src/nimble_mesh_utils.cc: DetermineTangentMatrixNonzeroStructure","src/nimble_linear_solver.cc: CRSMatrixContainer"])
p("C65","Conjugate gradient never reports success for an unsolved system",
"Whatever the matrix (also singular or indefinite) and the iteration limit, when CG_SolveSystem returns true the returned vector satisfies A x = b to the tolerance. (Violated: a negative limit, an indefinite matrix, and a singular matrix for which 0/0 arises.)",
"every matrix with nonzero diagonal, right-hand side, tolerance and iteration limit",
"All matrices.",
["src/nimble_linear_solver.cc: CG_SolveSystem"])
p("C66","Distributed assembly equals serial assembly",
"If the elements of a mesh are distributed over ranks and every rank assembles its own elements, then the nodal internal force after the sum over sharing ranks is, at every node on every rank, the force the serial run assembles for the whole mesh, whatever the distribution.",
"every mesh, every distribution of its elements over any number of ranks, every displacement",
"All partitions; a test runs one.",
["src/nimble_model_data.cc: ModelData::ComputeInternalForce","src/nimble_vector_communicator.h: VectorReduction","src/nimble_block.cc: Block::ComputeInternalForce"])
p("C67","The critical time step is the smallest over the whole mesh and setting up the mass is idempotent",
"The estimated critical time step is the minimum over all elements of all blocks of all ranks of the characteristic length divided by the sound speed; calling the lumped-mass computation again gives the same masses.",
"every mesh and distribution, every number of calls",
"All meshes and distributions. (Violated: there is no reduction over ranks, and the serial mass routine accumulates into the old masses.)",
["src/nimble_model_data.cc: ModelData::ComputeLumpedMass","src/nimble_block_base.cc: BlockBase::ComputeCriticalTimeStep"])
p("C68","Explicit integration conserves angular momentum of an unconstrained body",
"For an unconstrained body whose element stresses are symmetric, total angular momentum about the origin (sum over nodes of mass times current position cross velocity) is the same after every step as at the start, and the nodal forces have no resultant moment.",
"every mesh, motion, time step and number of steps",
"Inductive over steps.",
["src/integrators: ExplicitTimeIntegrator","src/nimble_block.cc: ComputeInternalForce"])
p("C69","Quasistatic runs meet prescribed displacements exactly",
"After every accepted quasistatic load step, each degree of freedom governed by a prescribed displacement has exactly the prescribed value at the time reached, and each moved by a prescribed velocity the accumulated sum of velocity times step, whatever the forces, the line search and the accuracy of the linear solver.",
"every force law, tangent, node numbering 0..N-1 in any order, number of steps",
"All histories of Newton and CG iterations.",
["src/integrators/quasistatic_time_integrator.cc: QuasistaticTimeIntegrator::Integrate, ComputeQuasistaticResidual","src/nimble_boundary_condition_manager.h: ApplyKinematicBC","src/nimble_linear_solver.cc: CG_SolveSystem"])
p("C70","Quasistatic residual is the out-of-balance force for any node numbering",
"For every mesh with distinct node ids the residual of a free degree of freedom is minus its internal force and that of a constrained one is zero. (Violated when ids are not 0..N-1: arrays are overrun.)",
"every mesh, numbering and displacement",
"All numberings; tests use 1..N.",
["src/integrators/quasistatic_time_integrator.cc: QuasistaticTimeIntegrator::Integrate, ComputeQuasistaticResidual"])
p("C71","Quasistatic status and schedule",
"A quasistatic run returns status 0 exactly when every load step met the tolerance within the iteration limit; it then has visited the times t0 + k (tf-t0)/n and written the initial state and the steps chosen by the output frequency; several ranks or tf < t0 are rejected. (Violated: meeting the tolerance in the last allowed iteration is a failure, limit 0 always fails, a negative limit always succeeds.)",
"every force law, limit, tolerance, number of steps and output frequency",
"All histories.",
["src/integrators/quasistatic_time_integrator.cc: QuasistaticTimeIntegrator::Integrate, ComputeQuasistaticResidual"])
p("C72","Element data written by a quasistatic run belong to the displacement written",
"In every output, and for the state carried to the next load step, stresses and deformation gradients are those of the accepted displacement. (Violated when the line search prefers the full step.)",
"every force law and run",
"Depends on the path of the line search.",
["src/integrators/quasistatic_time_integrator.cc: QuasistaticTimeIntegrator::Integrate, ComputeQuasistaticResidual"])
p("C73","Input decks: every setting is what the deck says",
"After a deck has been read, each setting is the (converted) value of the last line with its key, or the documented default if there is none; boundary condition lines are collected in order; lines with other keys never influence it; a deck is rejected exactly when a key is unknown or an on/off or visualization value is malformed; decimal numbers are read as their value.",
"every sequence of key/value lines",
"All sequences and all values.",
["src/nimble_parser.cc: Parser::ParseKeyValue","src/nimble_parser.h"])
p("C74","Element blocks get the material named on their line",
"The material parameters reported for a block of the mesh are those of the material line whose key is named on the block's 'element block' line, in any order of the lines; blocks without a line report 'none'. (Violated when names of two blocks end in the same number, or in no number.)",
"every set of element block and material parameter lines",
"All names and orders.",
["src/nimble_parser.cc: BlockProperties, ParseKeyValue","src/nimble_parser.h: GetModelMaterialParameters"])
p("C75","Expression functors: assignment, copying and failed parses",
"A functor holding an expression evaluates to the value of the text last assigned successfully, whatever was assigned before; an assignment that throws leaves it unchanged; copies evaluate like the original; case of letters does not matter; a default functor throws when evaluated.",
"every history of assignments and copies, every text and argument",
"All histories of assignments.",
["src/nimble_expression_parser.h: BoundaryConditionFunctor"])
p("C76","UQ sample files are read completely and exactly",
"Reading a sample file yields exactly the numbers of exact and approximate samples in its first line, the numbers of each sample line in order, and the coefficients after the colon; a file whose lines do not fit these counts is refused. (Violated: when lines are missing at the end of the file the last line is silently used again.)",
"every well-formed file with any number of samples and parameters, any white space between numbers",
"All files and sizes.",
["src/uq/nimble_uq.cc: UqModel::ReadSamples"])
p("C77","An exact sample's trajectory is that of a separate run with the sample's parameters",
"In an explicit run with uncertainty quantification the displacements and velocities of an exact sample are, at every step, those of a separate run whose materials have the sample's bulk and shear moduli; an approximate sample whose coefficients select an exact sample follows it. (Violated for prescribed displacements and for contact, which samples ignore.)",
"every mesh, law, boundary condition, number of samples and steps",
"All histories.",
["src/uq/nimble_uq_model_data.cc","src/uq/nimble_uq_block.cc: ComputeInternalForce","src/integrators/explicit_time_integrator.cc","src/nimble_boundary_condition_manager.h: ApplyKinematicBC"])
p("C78","Every block has parameters for every sample",
"Once the samples have been initialised, the parameters of every sample can be looked up for every block of the deck. (Violated for a block whose material has no 'uq parameters' line, and for all but the first block of a shared material.)",
"every set of blocks, materials and 'uq parameters' lines",
"All decks.",
["src/uq/nimble_uq.cc: ParseBlockInput, Initialize","src/uq/nimble_uq_model_data.cc: InitializeBlocks, ComputeInternalForce"])
p("C79","Columns of a sample file belong to the uncertain parameters in deck order",
"Column i of the sample file is the deviation of the i-th parameter named in the 'uq parameters' lines of the deck. (Violated: the lines are taken in alphabetical order of the material keys, so material_10 comes before material_2.)",
"every sequence of 'uq parameters' lines",
"All decks.",
["src/nimble_parser.h: uq parameter strings","src/uq/nimble_uq.cc: ParseBlockInput"])
p("C80","Uncertainty quantification does not disturb the nominal solution",
"With any samples, parameters, coefficients and boundary conditions, the nominal displacement, velocity, acceleration and output of an explicit run are exactly those of the run without uncertainty quantification.",
"every run that completes",
"All histories.",
["src/uq/nimble_uq_model_data.cc","src/integrators/explicit_time_integrator.cc"])
p("C81","Contact forces exert no moment",
"The nodal contact forces computed for a deformed configuration have zero total moment about every point, when each node force acts at the current position of its mesh node.",
"every contact model, displacement field and order of the concurrent additions",
"All geometries and schedules.",
["src/contact/serial/arborx_serial_contact_manager.cc: ComputeSerialContactForce","src/nimble_contact_manager.cc: Projection","src/nimble_contact_entity.h: SetNodalContactForces, ScatterForceToContactManagerForceVector"])
p("C82","Penalty contact is conservative",
"While the set of touching node-face pairs does not change, the power of the nodal contact forces on any motion is minus the rate of change of the penalty energy, one half of the penalty parameter times the sum of the squared gaps.",
"every contact model, differentiable motion and instant with non-degenerate touching faces",
"A statement about all motions of all models.",
["src/contact/serial/arborx_serial_contact_manager.cc: ComputeSerialContactForce","src/nimble_contact_manager.h: details::getContactForce, PenaltyContactEnforcement::EnforceContact"])
p("C83","Contact forces push the bodies apart",
"For every touching pair the force on the node points along the outward unit normal of the face, away from the body it has entered, with magnitude penalty times depth, and the face receives the opposite force.",
"every touching node-face pair",
"Real-valued geometry.",
["src/nimble_contact_manager.h: details::getContactForce","src/nimble_contact_entity.h: SetNodalContactForces"])
p("C84","The contact skin does not depend on the partition of the mesh",
"SkinBlocks followed by RemoveInternalSkinFaces on every rank keeps, over all ranks together, exactly the faces that belong to one element of the whole mesh, each once: faces on partition boundaries disappear on both sides and no other face does. The result is the skin of the unpartitioned mesh.",
"every mesh in which no face belongs to more than two elements, every partition, every number of ranks",
"All meshes, partitions and rank counts; two exchange rounds per shift.",
["src/nimble_contact_manager.cc: SkinBlocks, RemoveInternalSkinFaces"])
p("C85","Contact faces point outwards",
"For every element whose current shape is a positively oriented parallelepiped, the normal of each of the four contact triangles of each of its skin faces points away from the element's centre.",
"all positively oriented parallelepipeds, six faces, four triangles",
"Real-valued geometry; node ordering tables.",
["src/nimble_contact_manager.cc: SkinBlocks, CreateContactNodesAndFaces"])
p("C86","Every node of the secondary skin is a contact node on exactly one rank",
"In a parallel run every node of the secondary skin of the whole mesh is a contact node on exactly one rank. (The code does not: a node is left to the smallest rank that holds it, even if that rank holds it only through elements outside the secondary blocks.)",
"every mesh, partition and rank count",
"All partitions; refuted by a two-rank mesh.",
["src/nimble_contact_manager.cc: CreateContactEntities","src/nimble.mpi.reduction.h: GetAllIndices"])
p("C87","Bounding box and centre of the mesh",
"BoundingBox returns for each axis the smallest and largest coordinate of the nodes, and BoundingBoxCenter their mean.",
"every mesh",
"All coordinate lists.",
["src/nimble_genesis_mesh.cc: BoundingBox, BoundingBoxCenter"])
p("C88","The mesh file is read as stored",
"Reading a mesh file gives the mesh that the file stores: coordinates, global ids minus one, blocks with their names, element types, connectivities minus one, node and side sets with their names, members and distribution factors. (False for sets without distribution factors.)",
"every mesh file",
"All files.",
["src/nimble_genesis_mesh.cc: ReadFile"])
p("C89","The output file holds the mesh",
"The mesh part of the output file, read back, is the mesh the output was made from, including node set names. (False of the code for node set names.)",
"every mesh",
"All meshes; composition of writer and reader.",
["src/nimble_exodus_output.cc: InitializeDatabase","src/nimble_genesis_mesh.cc: ReadFile"])
p("C90","Text meshes survive a round trip",
"What a build without the Exodus library writes as text output can be read as a text mesh and gives the same mesh, whatever time steps follow, and can be written again. (False in two parts: coordinates keep sixteen digits only, and a mesh read from text cannot be written.)",
"every mesh with names free of white space, every list of data labels, every list of later lines",
"All meshes; parser and printer.",
["src/nimble_genesis_mesh.cc: ReadTextFile","src/nimble_exodus_output.cc: InitializeDatabaseTextFile"])
p("C91","Nodal updates do not depend on the storage layout",
"The time integrator's updates of nodal vectors through views (velocity += dt * acceleration and the like) update all three components of every node, for every array layout the Kokkos build can use. (False: with the column layout of CUDA builds only the first component is updated.)",
"every number of nodes, both layouts, every coefficient and content",
"Depends on the build; all sizes.",
["src/nimble_view.h: Viewify, AXPYResult::assignTo","src/nimble_kokkos_model_data.cc: GetVectorNodeData","src/nimble_kokkos_defs.h: kokkos_layout"])
p("C92","Boundary condition lines mean what they say",
"A boundary condition line with a kind, a set name, a coordinate and a number or a quoted expression is read as written whatever the white space; it applies to the set of that name; any other line, and any line naming a set that does not exist, is rejected. (False in two parts: missing or unreadable numbers become 0, conditions on unknown sets are dropped.)",
"every text, every table of set names, every list of lines",
"All texts.",
["src/nimble_boundary_condition.cc: BoundaryCondition::Initialize","src/nimble_boundary_condition_manager.cc: BoundaryConditionManager::Initialize"])
p("C93","Prescribed tractions load the body",
"A prescribed_traction condition adds its traction to the loads of the body. (False of the code: it is accepted and has no effect on any run.)",
"every run",
"All runs.",
["src/nimble_boundary_condition_manager.h: ApplyTractionBC","src/integrators/explicit_time_integrator.cc: Integrate"])
p("C94","Parallel contact equals serial contact",
 "For any number of ranks and any distribution of the contact nodes and faces over them, the contact forces computed with the ArborX parallel manager or the BVH manager do not depend on the order or the number of times the callbacks are invoked, balance over all ranks together (zero resultant and zero moment), and after the vector reduction every rank holds at each of its nodes the force the serial manager computes on the undistributed problem; both parallel managers compute the same forces.",
 "all numbers of ranks, distributions of contact entities, displacement fields, penalties, callback schedules and repetitions, interleavings of atomic additions, completion orders of the reduction",
 "Tests run a few rank counts on a few meshes; repeated callbacks and interleavings depend on the tree library and timing.",
 ["src/contact/parallel/arborx_parallel_contact_manager.cc:ContactCallback","src/contact/parallel/arborx_parallel_contact_manager.cc:ComputeParallelContactForce","src/contact/parallel/bvh_contact_manager.cc:NarrowphaseFunc","src/contact/parallel/bvh_contact_manager.cc:ComputeParallelContactForce","src/contact/parallel/parallel_contact_manager.h:ComputeContactForce"])
p("C95","Concurrent element kernels compute the serial forces and masses",
 "With the model data used by default (Kokkos), for every interleaving of the element kernels and every previous content of the work arrays, ComputeInternalForce leaves in every component of every node exactly the force that the serial assembly computes, and ComputeLumpedMass exactly the serial mass, however often it is called; combined with the reduction every rank ends with the force of a single serial process on the whole mesh. An inverted element stops the run.",
 "all meshes, displacements, material laws, interleavings of the threads of every kernel, contents of the work arrays, distributions over ranks and completion orders of messages",
 "A lost update or a dependence on stale work arrays shows only under particular interleavings; tests observe a few.",
 ["src/nimble_kokkos_model_data.cc:ComputeInternalForce","src/nimble_kokkos_model_data.cc:ComputeLumpedMass","src/nimble_kokkos_model_data.cc:ScatterVectorNodeData","src/nimble_kokkos_model_data.cc:GatherVectorNodeData","src/nimble_kokkos_block_material_interface.cc:compute_block_stress","src/nimble_utils.h:Invert3x3"])
p("C96","Named fields are independent stores",
 "After any sequence of allocations and writes, looking a label up at a place (nodes; elements of a block; old or new integration-point state of a block) yields exactly the field last allocated there under that label, with its initial value and the last contents written; a write changes no other label, block, place or step. A label keeps its id for life, different labels have different ids, and the id an allocation returns is the one found later. A call fails exactly when the length is not supported, the initial value is too short, the label or place is unknown, or the requested type differs from the allocated one.",
 "all sequences of allocations and writes, with any labels, blocks, lengths, extents and initial values",
 "Aliasing of two fields, or an id that changes when another field is added, appears only for particular orders of calls and labels.",
 ["src/nimble_kokkos_model_data.cc:AllocateNodeData","src/nimble_kokkos_model_data.cc:AllocateElementData","src/nimble_kokkos_model_data.cc:AllocateIntegrationPointData","src/nimble_kokkos_model_data.cc:GetDeviceIntPointData","src/nimble_kokkos_model_data.h:GetFieldId"])
p("C97","Integration-point state starts undeformed and advances completely",
 "After InitializeBlocks both states of every block hold the identity deformation gradient and zero stress at every integration point. UpdateStates makes the old state of every block equal to the new state for every integration-point field, keeps the new state, and touches nothing else, in whatever order the blocks are visited and whatever was written before.",
 "all sets of blocks, prior allocations, sequences of writes and visiting orders",
 "A block or field that is left behind by the state update corrupts later steps only for particular meshes and materials.",
 ["src/nimble_kokkos_model_data.cc:InitializeBlocks","src/nimble_kokkos_model_data.cc:UpdateStates"])
p("C98","Requested output columns hold the requested data",
 "For every output request and every set of blocks, the results file receives, for each requested field that exists and nothing else, one column per component named label plus component suffix: nodal values as stored; the element volume; the volume average of integration-point data; for iptNN_field the values at integration point NN. Requests never disturb one another.",
 "all request strings, field tables, blocks, elements and numbers of integration points",
 "The columns share temporaries, indices and lists of labels; a mix-up shows only for particular combinations of requests and blocks.",
 ["src/nimble_kokkos_model_data.cc:SpecifyOutputFields","src/nimble_kokkos_model_data.cc:ComputeElementData","src/nimble_kokkos_model_data.cc:GetElementDataForOutput","src/nimble_kokkos_model_data.cc:GetNodeDataForOutput"])
p("C99","The kernels compute with the fields the integrator works on",
 "Whatever memory the kernels run in, an explicit run behaves as if there were one copy of every field: each force evaluation and each output uses the mesh coordinates, the current displacement with all conditions applied, and the masses computed from them, at every step.",
 "all configurations, kernels, numbers of steps, and both arrangements of host and device memory",
 "Host and device copies are the same memory on the machines tests run on; a missing copy shows only on others, and only for fields that changed since the last copy.",
 ["src/nimble_kokkos_model_data.cc:ComputeInternalForce","src/nimble_kokkos_model_data.cc:UpdateWithNewDisplacement","src/nimble_kokkos_model_data.cc:WriteExodusOutput","src/nimble_model_data_base.cc:SetReferenceCoordinates","src/integrators/explicit_time_integrator.cc:Integrate"])
p("C100","The exit status tells what happened",
 "The program ends with status 0 exactly if the command line was accepted, the deck and the mesh were read, the model was set up and the integrator of the deck ran to its end and reported 0; a help request prints the help and runs nothing; MPI and Kokkos are shut down exactly once whenever an integrator has finished, and every failure gives a status other than 0.",
 "all builds, command lines, decks, meshes, and outcomes of each part",
 "Scripts decide by the status alone; a test runs a few command lines, while failures may come from any part in any combination.",
 ["src/nimble.cc:Run","src/nimble.cc:MainLoop","src/nimble_cli.cc:ParseAndGetErrorCode","src/nimble_main.cc:main"])
p("C101","Command line switches select what they name",
 "After an accepted command line each capability is on exactly if its switch was given, the input file is the first plain word, and a switch for a capability that was not built, a missing input file and a nonexistent input file are rejected.",
 "all builds and command lines, in any order",
 "The combinations of switches, words and builds are unbounded; the builds with optional libraries are rarely tested.",
 ["src/nimble_cli.cc:ConfigureCommandLineArguments"])
p("C102","A quasistatic deck is solved or refused",
 "A deck that asks for quasistatic integration, with a readable mesh, is run to its end by the application, in every build.",
 "all builds, command lines, meshes, numbers of ranks",
 "The integrator can be tested with a hand-made model data; whether any start of the program reaches it is a statement over all starts.",
 ["src/nimble_data_manager.cc:Initialize","src/integrators/quasistatic_time_integrator.cc:Integrate","src/nimble.cc:CreateIntegrator"])
p("C103","A deck with contact has contact",
 "A deck with a contact command runs with a contact manager that searches for contact, chosen by the contact backend key of the deck; the forces of a step depend only on the current configuration.",
 "all builds, decks, meshes and displacements",
 "Forces that vanish in every configuration look right in every test without penetration.",
 ["src/nimble_contact_manager.cc:GetContactManager","src/nimble_contact_manager.cc:ComputeContactForce","src/nimble_contact_interface.h:DoSearchAndEnforcement","src/nimble_parser.cc:ReadFile"])
p("C104","The logarithm of a rotation",
 "For every rotation the library returns a skew symmetric tensor whose exponential is that rotation, with an angle between 0 and 180 degrees.",
 "all rotations, whatever the output array held before the call",
 "Rotations form a continuum; the special angles 0 and 180 degrees and special axes are measure zero and need their own code paths.",
 ["src/nimble_utils.h:Log_Rotation","src/nimble_utils.h:Log_Rotation_Pi"])
p("C105","Derived element output is the volume and the volume average of what was asked for",
 "For every block, every list of requested output names and every state of the simulation, the derived element output named volume holds each element's current volume, and the output named after a component stored at the integration points holds, for each element, the volume average of that component over the element in its current configuration (hence a value between the smallest and the largest one at its integration points); the output fails exactly if an element is inverted at an integration point.",
 "all material state labels, request lists, coordinates, displacements, element data",
 "The bookkeeping maps request positions to data positions through two tables; a wrong entry yields plausible numbers of another component for particular request orders only.",
 ["src/nimble_block.cc:ComputeDerivedElementData","src/nimble_block.cc:DetermineDataOffsets","src/nimble_model_data.cc:WriteExodusOutput","src/nimble_model_data.cc:SpecifyOutputFields","src/nimble_element.cc:ComputeVolumeAverage"])
p("C106","Results can be read back by name, after any history of output steps",
 "For every mesh, every set of output names and every sequence of output steps, the Exodus result file holds the steps in the order they were written, and reading a variable by its name at a step (for a block, if it is an element variable) gives the array that was passed under this name at that step and block; nothing written later changes it, and an output step whose arrays fit the declared names and the mesh succeeds.",
 "all meshes, name sets per block (different blocks may have different ones), histories of output steps",
 "Variables are numbered through a sorted set of names shared by all blocks; a wrong number shows only for certain combinations of names and blocks.",
 ["src/nimble_exodus_output.cc:InitializeDatabase","src/nimble_exodus_output.cc:WriteStep"])
p("C107","The closest point projection finds the closest point of the triangle",
"For every point and every triangle - also one without area - ClosestPointProjection returns a point of the triangle (up to the tolerance in its barycentric coordinates) such that no point of the triangle is nearer; FACE is reported only for the foot of the perpendicular strictly inside, NODE_OR_EDGE only on or next to the boundary. The simple variant reports a face only with that foot, a unit normal and the signed distance along it.",
"all points, all triangles (any shape, degenerate or not), all tolerances >= 0, all batches",
"Minimality ranges over all points of the triangle and over a continuum of positions; a test compares a few positions with values computed by hand.",
["src/nimble_contact_manager.cc: ClosestPointProjection, ClosestPointProjectionSingle, SimpleClosestPointProjectionSingle","src/nimble_contact_entity.h: PointEdgeClosestPointFindT, PointEdgeClosestPointFindDistanceSquared"])
p("C108","The contact visualization shows the contact entities",
 "For every set of contact faces and nodes and every history of visualization steps, the visualization file of a rank has one triangle per contact face and one point element per contact node, with node and element ids that are distinct over all ranks, and holds at every step the number of faces in contact and, at every vertex and node, the displacement from its position at initialization to its position at that step and the contact status of its entity.",
 "all contact faces and nodes, all ids, all numbers of ranks, all histories of steps",
 "Ids are computed from the largest id of all ranks; a collision needs particular (large) ids, and positions are matched by a running index over all entities.",
 ["src/nimble_contact_manager.cc:InitializeContactVisualization","src/nimble_contact_manager.cc:WriteVisualizationData","src/nimble_contact_manager.cc:ContactVisualizationWriteStep"])
p("C109","The contact report lists the steps with contact",
 "At the end of an explicit run the report of a rank lists exactly the steps in which contact faces were in contact, with their number at that step, whether or not the run writes a contact visualization.",
 "all runs: numbers of steps, output frequencies, contact histories, with and without visualization",
 "The report is collected over the whole history of a run; a test with permanent contact and visualization at every step cannot tell one step from the next.",
 ["src/integrators/explicit_time_integrator.cc:Integrate","src/nimble_contact_manager.cc:numActiveContactFaces","src/nimble_contact_manager.cc:ContactVisualizationWriteStep"])
p("C110","Explicit runs below the stability limit stay bounded",
 "For every linear elastic body without constraints, every initial velocity and every number of steps, an explicit run keeps kinetic plus elastic energy minus dt^2/8 times the acceleration energy equal to the initial kinetic energy; when the time step is below 2 divided by the largest frequency of the body the velocities of all nodes stay bounded for ever, and above it a run with any nonzero velocity in that mode exceeds every bound.",
 "all masses, symmetric stiffness matrices, initial velocities, time steps, numbers of steps and nodes",
 "Stability is a statement about infinitely many steps and all initial states; a slow instability shows only after more steps than any test runs.",
 ["src/integrators/explicit_time_integrator.cc:Integrate","src/nimble_model_data.cc:ComputeLumpedMass"])
p("C111","The reported maximum stable time step is stable",
 "Before the first step an explicit run prints an approximate maximum stable time step and warns when the step of the user is larger; a run whose step does not exceed it, started with a small enough velocity, does not blow up.",
 "all meshes, materials, initial velocities, and numbers of steps",
 "The instability depends on the material (ratio of shear and bulk modulus), the mode that is excited and the number of steps; runs of tests are short and use steps well below the limit.",
 ["src/integrators/explicit_time_integrator.cc:Integrate","src/nimble_block_base.cc:ComputeCriticalTimeStep","src/nimble_element.cc:ComputeCharacteristicLength","src/nimble_material.cc:GetStress"])
p("C112","Patch test",
 "For every mesh of hexahedra of one material (any material law), every affine motion of its nodes and every node that is not on the surface of the mesh, the internal force at the node is zero: a uniform deformation is in equilibrium whatever the shape of the elements.",
 "all meshes (numbers, shapes and connectivity of elements), all material laws, all affine motions, all interior nodes",
 "A test checks one mesh and one deformation; the cancellation involves the shapes of all elements around the node and the exactness of the integration rule.",
 ["src/nimble_element.cc:HexElement::ComputeNodalForces","src/nimble_element.cc:HexElement::ComputeDeformationGradients","src/nimble_block.cc:Block::ComputeInternalForce"])
p("C113","The mass of a body depends only on its surface",
 "Two meshes with the same connectivity and one density whose nodes differ only in the interior have the same total lumped mass, so smoothing or moving interior nodes never changes the mass of a body.",
 "all meshes, all densities, all finite sets of interior nodes and all their positions for which no element is inverted",
 "The statement compares two arbitrary positions of arbitrarily many nodes.",
 ["src/nimble_element.cc:HexElement::ComputeLumpedMass","src/nimble_block.cc:Block::ComputeLumpedMassMatrix","src/nimble_model_data.cc:ComputeLumpedMass"])
p("C114","Results do not depend on the axes of the mesh",
 "If the coordinates of the nodes and the initial velocities of an unconstrained body are given in rotated and shifted axes, then after every step of an explicit run the displacements, velocities and accelerations are the same vectors in the rotated axes, and the second run fails only if the first does.",
 "all meshes, elastic and neo-Hookean blocks, rotations, translations, initial velocities, numbers of steps",
 "Any rotation can reveal a component that is mixed up; a mesh of axis aligned boxes cannot.",
 ["src/nimble_element.cc:HexElement","src/nimble_material.cc:ElasticMaterial::GetStress","src/nimble_material.cc:NeohookeanMaterial::GetStress","src/integrators/explicit_time_integrator.cc:Integrate"])
p("C115","Results do not depend on the numbering of the nodes",
 "If the nodes are renumbered consistently in the coordinates, the connectivity and the node sets, then after every step of an explicit run every node has, under its new number, the same displacement, velocity and acceleration, in the state and in everything written.",
 "all meshes, renumberings, kinematic and initial conditions, numbers of steps",
 "The number of renumberings grows like n!; an index that is right for one numbering only shows in others.",
 ["src/nimble_block.cc:ComputeInternalForce","src/nimble_block.cc:ComputeLumpedMassMatrix","src/nimble_boundary_condition_manager.h:ApplyKinematicBC","src/integrators/explicit_time_integrator.cc:Integrate"])
p("C116","Results do not depend on the units of the input",
 "If lengths are multiplied by l, times by t, densities by d, moduli by d (l/t)^2 and the conditions are converted accordingly, then after every step of an explicit run displacements are multiplied by l, velocities by l/t and accelerations by l/t^2, in the state and in everything written.",
 "all meshes, factors, kinematic and initial conditions, numbers of steps",
 "A hidden absolute constant shows only for particular magnitudes of the input.",
 ["src/nimble_element.cc:HexElement","src/nimble_material.cc:GetStress","src/nimble_boundary_condition_manager.h:ApplyKinematicBC","src/integrators/explicit_time_integrator.cc:Integrate"])
p("C117","Galilean invariance",
 "Adding the same velocity to all initial velocities of an unconstrained body changes the displacements after every step of an explicit run by this velocity times the elapsed time, the velocities by this velocity, and the accelerations not at all.",
 "all meshes, elastic and neo-Hookean blocks, initial velocities, added velocities, numbers of steps",
 "The statement compares two runs of arbitrary length from arbitrary states.",
 ["src/integrators/explicit_time_integrator.cc:Integrate","src/nimble_block.cc:ComputeInternalForce"])
p("C118","Uniform motion",
 "An unconstrained body whose nodes all start with the same velocity keeps it: the run never fails, the displacement of every node after k steps is k dt times the velocity, the acceleration is zero.",
 "all meshes without inverted elements, all material laws without stress in the undeformed state, all velocities, numbers of steps",
 "Spurious forces or drift accumulate over steps and depend on the shape of the elements.",
 ["src/integrators/explicit_time_integrator.cc:Integrate","src/nimble_element.cc:HexElement::ComputeNodalForces","src/nimble_element.cc:HexElement::ComputeDeformationGradients"])
p("C119","Internal forces turn with the body",
 "If a deformed body is moved as a rigid body, the internal forces at its nodes are turned with it; in particular a rigidly rotated undeformed body has no internal forces.",
 "all meshes, materials, deformations, rotations and translations",
 "Frame indifference ranges over all rotations and deformations; a material that is only right for small rotations passes every test with small rotations.",
 ["src/nimble_material.cc:ElasticMaterial::GetStress","src/nimble_material.cc:NeohookeanMaterial::GetStress","src/nimble_element.cc:HexElement::ComputeNodalForces","src/nimble_block.cc:ComputeInternalForce"])
p("C120","Elastic bodies store the work done on them",
 "The internal forces of a body derive from a strain energy: along every path of deformations the work done against them is the change of the energy, and a path that returns to the initial shape neither gains nor loses work.",
 "all meshes, materials, differentiable paths of displacements (through deformations without inverted elements)",
 "The statement ranges over all paths in the space of all displacements; a stress that is right in every tested state can still fail to be integrable.",
 ["src/nimble_material.cc:NeohookeanMaterial::GetStress","src/nimble_material.cc:ElasticMaterial::GetStress","src/nimble_element.cc:HexElement::ComputeNodalForces","src/nimble_block.cc:ComputeInternalForce"])
p("C121","The corner from which an element is listed does not matter",
 "If the eight nodes of any elements of the mesh are listed starting from another corner and direction - any of the numberings related by a rotation of the cube - the internal force of every node, the lumped masses, the critical time step, the volume averages and the whole explicit run are unchanged, and the element tangents hold the same entries at the relisted rows and columns; a listing that mirrors an element is refused.",
 "all meshes and blocks, all relistings of any set of elements by rotations of the cube, all displacements, all runs and numbers of steps",
 "There are 24 listings of every element and independent choices for every element of every mesh; tests use the listing the mesh generator happened to write.",
 ["src/nimble_element.cc:HexElement","src/nimble_block.cc:ComputeInternalForce","src/nimble_block.cc:ComputeLumpedMassMatrix","src/nimble_block_base.cc:ComputeTangentStiffnessMatrix","src/nimble_model_data.cc","src/integrators/explicit_time_integrator.cc:Integrate"])
p("C122","Mirror images move as mirror images; a symmetric problem has a symmetric solution",
 "If one problem is the image of another under a rotation or reflection of space (mesh with its elements listed in any admissible way and distributed over blocks in any way, materials, initial velocities, boundary conditions along the axes), the displacements and velocities of the explicit run of the one are the images of the other's after every number of steps. In particular a problem mapped onto itself keeps that symmetry, and nodes on a plane of symmetry never leave it.",
 "all meshes of elastic and neo-Hookean blocks, all isometries (all signed permutations of the axes when there are boundary conditions), all numberings, all initial velocities and boundary conditions, all numbers of steps",
 "A symmetric solution at the end of one test says nothing about other meshes and steps; integration order, node numbering and element listing may break symmetry anywhere.",
 ["src/nimble_element.cc:HexElement","src/nimble_block.cc:ComputeInternalForce","src/nimble_block.cc:ComputeLumpedMassMatrix","src/nimble_boundary_condition_manager.h","src/integrators/explicit_time_integrator.cc:Integrate"])
p("C123","The work of the forces becomes kinetic energy",
 "In every explicit run the kinetic energy of any set of unconstrained degrees of freedom after k steps is the initial one plus the work of the net forces over all steps (each step with the mean of the forces at its two ends), plus a term dt^2/8 m a^2 of the last step only: no energy is created or lost by the time stepping over any number of steps. For a mesh without contact the work is that of the internal forces; fixed degrees of freedom do no work.",
 "all numbers of steps, all step sizes, all forces (internal, external, contact), all meshes with stress-free undeformed materials, all sets of degrees of freedom",
 "Energy drift shows only over long runs and a test can sum only finitely many steps of one problem within a tolerance; the statement is an identity for all histories.",
 ["src/integrators/explicit_time_integrator.cc:Integrate","src/nimble_model_data.cc:ComputeInternalForce"])
p("C124","Interactions reported by contact search extensions",
 "When a search extension derived from ContactInterface reports interactions of nodes and faces by EnforceNodeFaceInteraction, possibly in parallel, the contact force vector afterwards is the sum of the interactions: minus the penalty force on each node and the same force spread over the nodes of its face, acting at the closest point; so the contact forces have no resultant. (Found false: a call keeps its forces in the shared entities between writing and scattering them, so two nodes reported on one face at the same time can leave a resultant F1 - F0; it holds for every schedule in which calls about one node or one face do not overlap, in particular with one thread. The force acts at the closest point iff that point is not beyond the edge opposite the first or second vertex.)",
 "all numbers of interactions, all interleavings of their memory accesses, all faces, closest points, gaps and directions",
 "A data race depends on the schedule; a test sees a few schedules of a few interactions.",
 ["src/nimble_contact_interface.h:EnforceContact","src/nimble_contact_interface.h:EnforceNodeFaceInteraction","src/nimble_contact_entity.h:ComputeNodalContactForces","src/nimble_contact_entity.h:ScatterForceToContactManagerForceVector","src/nimble_contact_entity.h:TriangleArea"])
p("C125","Reduction over shared nodes with Tpetra, over any history",
 "With the Tpetra communicator, VectorReduction leaves at every node of every rank the sum of the data passed in this call over all ranks that hold the node, and changes nothing else of the array, for any number of components per node and whatever reductions were made before, although the vectors used for communication are never reset. (Found true for one component and for as many components as dimensions; false for other numbers, e.g. tensors, which are silently treated as one value per node.) Shared nodes belong to the least rank that holds them.",
 "all partitions, node orders and numbers of ranks, all histories of reductions and data, all orders in which the directory shows the ranks",
 "Stale values of earlier reductions show only in histories; partitions and ranks are unbounded.",
 ["src/nimble_tpetra_utils.cc:Initialize","src/nimble_tpetra_utils.cc:VectorReduction","src/nimble_tpetra_utils.h:SimpleTieBreak"])
p("C126","The Tpetra tangent stiffness matrix",
 "AllocateTangentStiffnessMatrix allocates an entry for two degrees of freedom exactly if an element of the rank couples them; TangentStiffnessMatrixNumNonzeros is the number of coupled pairs of degrees of freedom of the mesh; TangentStiffnessMatrixReplaceValue and SumIntoValue enter a value at an allocated entry. (Found: the pattern is right; the number counts pairs coupled on several ranks repeatedly, and is right iff there are none; every attempt to enter a value aborts the run.)",
 "all meshes, connectivities, partitions, matrix positions and values",
 "The pattern depends on the whole connectivity, the count on the partition.",
 ["src/nimble_tpetra_utils.cc:AllocateTangentStiffnessMatrix","src/nimble_tpetra_utils.cc:TangentStiffnessMatrixReplaceValue","src/nimble_tpetra_utils.cc:TangentStiffnessMatrixNumNonzeros","src/nimble_tpetra_utils.h:SumIntoValue"])
p("C127","The box around all contact nodes",
 "BoundingBox returns the smallest box around the contact nodes, in whatever order the threads execute the atomic operations; BoundingBoxAverageCharacteristicLengthOverAllRanks returns the average over the ranks of the largest extent of their contact nodes. (Found: exact for every order if there is a contact node; a rank without contact nodes contributes minus twice the largest floating-point number to the average.)",
 "all numbers and positions of contact nodes, all orders of the atomic operations, all distributions over ranks",
 "Orders of atomic operations are exponentially many, and a test meets few of them.",
 ["src/nimble_contact_manager.cc:BoundingBox","src/nimble_contact_manager.cc:BoundingBoxAverageCharacteristicLengthOverAllRanks"])
p("C128","Half models with symmetry boundary conditions",
 "If a mesh, its initial velocities and its kinematic conditions are symmetric about a plane normal to a coordinate direction, then the explicit run of one half of the mesh, with zero displacement (or velocity) prescribed normal to the plane for the nodes on it, gives after every step the displacements, velocities and accelerations of the nodes of the half in the run of the full mesh, whose other nodes move as the mirror images and whose nodes on the plane stay on it without being held. If the full run does not abort, the half run does not abort.",
 "all meshes, materials, numberings of the other half, conditions, initial velocities, numbers of steps",
 "Meshes, loads and step counts are unbounded; a test compares two runs of one mesh.",
 ["src/integrators/explicit_time_integrator.cc:Integrate","src/nimble_model_data.cc:ComputeInternalForce","src/nimble_model_data.cc:ComputeLumpedMass","src/nimble_boundary_condition_manager.h:ApplyKinematicBC"])
p("C129","No hourglass modes: only rigid motions of a hexahedron have no strain energy",
 "For a hexahedral element whose edges, one taken along each of the three directions, always form a right-handed frame (boxes, parallelepipeds, moderately distorted bricks), ComputeTangent always succeeds, and for positive bulk and shear modulus the energy u.K.u of nodal displacements u vanishes exactly when u is an infinitesimal rigid motion (a skew matrix applied to the nodal positions plus a translation); so the element has no spurious zero-energy modes.",
 "all oriented element shapes, all positive moduli, all nodal displacements, every Gauss coordinate strictly between 0 and 1",
 "Shapes and displacements form a continuum; a numerical rank test covers one shape at a time.",
 ["src/nimble_element.cc:ComputeTangent","src/nimble_element.cc:HexElement","src/nimble_material.cc:GetTangent"])
p("C130","The quasistatic linear solve of a supported body succeeds",
 "For a body of oriented hexahedra with positive moduli that is connected through faces and whose kinematic conditions exclude rigid motions, with at least one free component, the linear system the quasistatic integrator builds (zeroed matrix, assembled tangents, averaged diagonal entry, conditions imposed on rows and columns and on the right-hand side) is symmetric positive definite, nothing is rejected, and CG_SolveSystem reports success for every residual if its iteration limit exceeds the number of unknowns; in exact arithmetic the increment vanishes at the prescribed components for every tolerance, the imbalance at all others is at most the tolerance times the one before, and with tolerance zero it balances the residual exactly.",
 "all meshes, node numberings (also with several nodes per unknown), materials per element, supports, residuals, earlier contents of the matrix and of the scratch space",
 "Positive definiteness is a statement about all displacements of all meshes; a test solves one system.",
 ["src/integrators/quasistatic_time_integrator.cc:Integrate","src/nimble_block_base.cc:ComputeTangentStiffnessMatrix","src/nimble_boundary_condition_manager.cc:ModifyTangentStiffnessMatrixForKinematicBC","src/nimble_boundary_condition_manager.cc:ModifyRHSForKinematicBC","src/nimble_linear_solver.cc:CG_SolveSystem"])
p("C131","The quasistatic matrix is the derivative of the residual",
 "The matrix assembled by the quasistatic integrator at a displacement is the derivative of the residual (minus the internal force) with respect to the displacement, for all directions. (Holds for elastic blocks in the undeformed state, for every mesh and direction; violated in stressed states: a stretched elastic cube that is turned.)",
 "all meshes of elastic blocks, node numberings, displacement directions; refutation for all positive moduli and all stretches",
 "a derivative in all directions for all meshes; tests check convergence of a run",
 ["src/nimble_block_base.cc:ComputeTangentStiffnessMatrix","src/nimble_element.cc:ComputeTangent","src/integrators/quasistatic_time_integrator.cc:Integrate","src/nimble_material.cc:ElasticMaterial::GetTangent"])
p("C132","Explicit runs converge to the motion of the body",
 "For a mesh of elastic blocks under prescribed displacements, constant prescribed velocities and initial velocities, let y be a solution of the semi-discrete equations of motion (mass times acceleration equals the internal force at every free component, the conditions met at the others) with a bounded fourth derivative and no element turned inside out. There is a constant C such that every explicit run over the same time with sufficiently many load steps m completes, and after each step its displacements and free velocities are within C/m^2 of y at that time. (Under an external force present at the start - the code has none - the convergence would be of first order only, the first half step having no acceleration; the exact error is given.)",
 "all meshes of elastic blocks, kinematic conditions, smooth motions, durations and numbers of load steps",
 "a limit over all step counts, for all meshes and motions; tests compare one step count with stored results",
 ["src/integrators/explicit_time_integrator.cc:Integrate","src/nimble_boundary_condition_manager.h:ApplyKinematicBC","src/nimble_block_base.cc:ComputeInternalForce","src/nimble_material.cc:ElasticMaterial::GetStress"])
p("C133","Profiling regions report their own duration",
 "For every history of push_region and pop_region_and_report_time calls on a ProfilingTimer and every clock that does not run backwards, each pop returns the time since the push it matches, whatever the nesting. (Holds without Kokkos if no region is entered while one of the same name is open, and with Kokkos if regions are not nested at all; violated otherwise: the time of the outer region is counted from the entry of the inner one.)",
 "all call histories, nestings, region names and non-decreasing clocks; both builds",
 "ranges over all nestings and clock readings; tests never look at times",
 ["src/nimble_profiling_timer.h:ProfilingTimer","src/nimble_timer.h:Timer","src/nimble_timer.h:TimeKeeper"])
p("C134","The timing data of an explicit run",
 "In the timing data of an explicit run the total is the duration of the time loop, the columns are the summed durations of force computation, contact, output and reductions over ranks, and the parts do not exceed the total. (Holds for all columns but the last: the time reported for vector reduction is 0 in every run.)",
 "all runs, numbers of steps, with and without contact and output, all non-decreasing clocks",
 "ranges over all runs and clock readings",
 ["src/integrators/explicit_time_integrator.cc:Integrate","src/nimble_timing_utils.cc:TimingInfo"])
p("C135","Time stamps sort in the order in which they are taken",
 "Time stamps of the library taken later come later in alphabetical order, so timing files of different runs have different names, without blanks. (Holds for microsecond stamps - those used for the timing file - and nanosecond stamps; violated by millisecond stamps, which read the clock twice.)",
 "all moments, all numbers of ranks",
 "fails only when the two clock readings fall on either side of a full second",
 ["src/nimble.quanta.stopwatch.h:get_microsecond_timestamp","src/nimble.quanta.stopwatch.h:get_millisecond_timestamp","src/nimble_timing_utils.cc:BinaryWrite"])
p("C136","Blocks do not disturb each other's element work arrays in the default (Kokkos) build",
  "The internal force computed by the default model data is the sum of the forces of all elements of all blocks, each evaluated with the coordinates, displacements and stresses of its own element, for every number and size of the blocks: the device work arrays in which the nodal values of a block are gathered before the stress update and read again after it belong to that block alone.",
  "all meshes: numbers of blocks, numbers of elements per block, connectivities, coordinates, displacements, material laws; all interleavings of the element kernels; all initial contents of the work arrays; both behaviours of the library's resize",
  "whether two blocks share storage depends on the combination of their sizes and on the release of the library; the tests have at most one block of a single element, and a shared array only shows as a wrong force",
  ["src/nimble_kokkos_model_data.cc: ModelData::InitializeGatheredVectors, ComputeInternalForce, GatherVectorNodeData"])
p("C137","A quasistatic run that reports success has a finite solution",
 "When the quasistatic integrator accepts a load step and returns status 0, the residual norm of the accepted displacement is a finite number not above the tolerance. (Violated: comparisons with a value that is not a number are false, so a residual that becomes NaN - because a prescribed displacement is NaN, or because the secant line search divides by zero - ends the iteration at once and the step is accepted and written; what holds is that the accepted residual is not greater than the tolerance in the machine's comparison, hence at most the tolerance when both are finite.)",
 "all residual functions, linear solvers, kinematic conditions, tolerances, iteration limits, load steps and outputs, with values that may be finite, infinite or not a number",
 "depends on whether a value is not a number at some iteration of some step; tests run cases that converge",
 ["src/integrators/quasistatic_time_integrator.cc:Integrate","src/integrators/quasistatic_time_integrator.cc:ComputeQuasistaticResidual"])
p("C138","Setting up a parallel reduction gives every rank the right data over the wire",
 "When all ranks pass their node ids to the set-up of the vector reduction, each rank receives from the root the group numbers of exactly its own nodes, in its own order, through one gathered and one scattered vector cut at the displacements of the counts, and builds from them the same reduction information as if it read the root's table; so the sums of C01 are those of the data that really travels. Point-to-point receives leave the message at the beginning of the buffer and return its length; the largest node id and the node counts are those of all ranks (on a rank without nodes the search for the largest id reads outside its array).",
 "all numbers of ranks, node lists (also empty ones), buffers and messages",
 "ranges over all numbers of ranks and all distributions of nodes over them",
 ["src/nimble.mpi.reduction.cc:GenerateReductionInfo","src/nimble.mpi.reduction.h:ReductionInfo","src/nimble.mpi.mpicontext.h:gatherv_recieve, scatterv_send, recv, recv_avoid_resize","src/nimble.mpi.reduction_utils.cc:GetMaximumNodeId, GetNumberOfNodesAssignedToEachRank"])
p("C139","scatter gives each rank its vector",
 "mpicontext::scatter(root, source), called on all ranks with one vector per rank on the root, returns source[r] on every rank r. (Violated: the root sends the representation of the vector objects instead of their elements - whatever the shape, there are contents for which the result is wrong, and with more elements than the objects have words memory outside is read - and returns an empty vector itself. Right only when all vectors are empty.)",
 "all numbers of ranks, roots, vectors and object representations",
 "the function is not called by the tests; what it sends depends on addresses",
 ["src/nimble.mpi.mpicontext.h:scatter"])
p("C140","Array views show the elements they are made for",
 "A view made from a vector, from a start and a count, by cutting a vector according to counts or as part of another view shows exactly the elements meant; views of one partition do not overlap and cover the array in order; copy_from copies element by element, also within one array when the source does not start before the view. A view made from two pointers shows the elements between them. (The last is violated for elements of more than one byte: it shows sizeof(T) times as many.)",
 "all arrays, counts, element sizes, addresses and overlaps",
 "ranges over all arrays and element types; the constructor from two pointers is not called by the tests",
 ["src/nimble.quanta.arrayview.h:arrayview_t","src/nimble.quanta.arrayview.h:partition_into_arrayviews"])
p("C141","The results of a run can be read back from the text file",
 "In a build without Exodus every call of WriteStep appends one record to the text file, leaving what is there unchanged; a reader that knows from the header how many global values, nodal variables and nodes there are finds, after any number of steps, exactly the records written, in order: the time, every global value, every value of every nodal variable at every node, and for every element block the values of every element variable, plain and derived, under its name and number - all written with sixteen digits. A step is written whenever every block has its lists of names and data and every name was numbered when the file was begun.",
 "all numbers of steps, all data, blocks, names without blanks and ways to write a number",
 "depends on the history of all writes to the file and on the state (precision) of the stream; ranges over all data",
 ["src/nimble_exodus_output.cc:ExodusOutput::WriteStepTextFile","src/nimble_exodus_output.cc:ExodusOutput::WriteStep"])
p("C142","The dense matrix container holds what is written to it",
 "After AllocateNonzeros with the indices of a square matrix a MatrixContainer has one more row than the largest row index, every entry of the pattern can be accessed, and a new container is the zero matrix; writing an entry is read back and changes no other entry; SetAllValues, SetRowValues and SetColumnValues set exactly the whole matrix, the row, the column. (Two surprises, proved: column indices beyond the largest row are not provided for - the access is outside the storage - and a container allocated again is not zero but keeps old values at other places.)",
 "all patterns, matrices, rows, columns and values",
 "ranges over all sizes and access histories",
 ["src/nimble_linear_solver.h:MatrixContainer"])
p("C143","The progress report of an explicit run",
 "Rank 0, and only rank 0, prints 0% complete and then, each once and in increasing order, those of 10, 20, ..., 100 percent that are a whole number of load steps, ending with 100%; printing does not affect the run; when x percent are reported, x percent of the steps have been made. (The last is violated: a line is printed before the step it counts, so one step is missing, also at 100%; and with more than 214748364 load steps the report overflows int.)",
 "all runs of any number of steps, all loads, boundary conditions and roundings exact on whole numbers",
 "ranges over all numbers of steps; console output is not compared by the tests",
 ["src/integrators/explicit_time_integrator.cc:ExplicitTimeIntegrator::Integrate"])
p("C144","How often results are written does not change them",
 "Two runs that differ only in the output frequency end the same way (rejected, aborted, failed, finished); finished explicit runs have the same time, displacements, accelerations and element state, and the same velocities at every degree of freedom without a kinematic condition (at every degree of freedom when both write output); there is one record per step, not depending on the frequency, such that the file holds the initial record and those of the selected steps. The same, without exceptions, for quasistatic runs.",
 "all inputs: meshes, loads, boundary conditions, contact, materials, numbers of steps, step sizes and pairs of output frequencies (also 0 and negative), all force evaluations that do not depend on the output flag (those of the code do not)",
 "relates every pair of runs on every input; a test compares two runs of one input",
 ["src/integrators/explicit_time_integrator.cc:ExplicitTimeIntegrator::Integrate","src/integrators/quasistatic_time_integrator.cc:QuasistaticTimeIntegrator::Integrate","src/nimble_boundary_condition_manager.h:BoundaryConditionManager::ApplyKinematicBC"])
p("C145","A linear problem is solved in one iteration of the nonlinear solver",
 "When the internal force is an affine function of the displacement and the assembled tangent is its matrix, symmetric and positive definite at the degrees of freedom without a kinematic condition: an iteration from a non-zero residual never stops the run (the linear solver succeeds, the line search does not divide by zero); the accepted residual is that of a displacement whose residual over all unknowns is within the linear solver's tolerance; if the linear tolerance is small against the nonlinear one every load step ends with success after at most one iteration, and so does the run; with an exact linear solver the accepted displacement is an exact equilibrium at every unconstrained degree of freedom.",
 "all meshes, boundary conditions, linear forces and matrices of any size, load steps, tolerances, previous contents of the solver's scratch space, and limits on the nonlinear iterations of at least two",
 "ranges over all linear problems of every size; a test solves a few",
 ["src/integrators/quasistatic_time_integrator.cc:QuasistaticTimeIntegrator::Integrate","src/nimble_linear_solver.cc:CG_SolveSystem","src/nimble_boundary_condition_manager.h:BoundaryConditionManager::ModifyTangentStiffnessMatrixForKinematicBC"])
p("C146","The solution of a linear problem does not depend on the load path",
 "When the internal force is an affine function of the displacement, with a matrix that is symmetric and positive definite at the unconstrained degrees of freedom, and only displacements are prescribed: there is at most one equilibrium with the prescribed displacements; every load step that is accepted ends in it (exact linear solver); so two runs to the same final time end with the same displacements, whatever the numbers of load steps, starting times and states before.",
 "all meshes, boundary conditions, linear forces, numbers of load steps, starting times and previous states",
 "relates every pair of runs of every linear problem; a test compares two",
 ["src/integrators/quasistatic_time_integrator.cc:QuasistaticTimeIntegrator::Integrate","src/integrators/quasistatic_time_integrator.cc:ComputeQuasistaticResidual"])
p("C147","Superposition of explicit runs",
"If the internal forces are linear in the displacement and the load, the prescribed velocities and displacements and the initial velocities of a run are alpha times those of a first run plus beta times those of a second, all three runs finish and every displacement, velocity and acceleration of every output and at the end is alpha times that of the first plus beta times that of the second. In particular multiplying all loads, prescribed values and initial velocities by alpha multiplies the response by alpha, and a body without any of them stays at rest.",
"every mesh, mass, node sets, list of conditions (constants or expressions), coefficients alpha and beta, linear force, load history, number of steps, output frequency and time interval",
"it compares three whole histories for all loads and step counts; a test compares a few final values and cannot see a condition or half step that is affine instead of linear on other data",
["src/integrators/explicit_time_integrator.cc: ExplicitTimeIntegrator::Integrate 60-325","src/nimble_boundary_condition_manager.h: ApplyInitialConditions, ApplyKinematicBC 93-205"])
p("C148","Every library that is started is stopped",
"Over any sequence of calls of NimbleApplication::Run on one object followed by its destruction, MPI, Kokkos, VT and the Tpetra scope are never started while running, are stopped in the reverse order of their start, are all running during a simulation that needs them, and none is left running at the end.",
"every build, every sequence of calls with every command line, outcome of reading the deck and outcome of the simulation, including exceptions and aborts",
"exceptions can come at any time and the calls may repeat in any order; a test process with a leaked library still ends normally",
["src/nimble.cc: NimbleApplication::Run 105-150, InitializeSubsystems 176-237, FinalizeSubsystems 239-259"])
p("C149","Run may be called again",
"NimbleApplication::Run is re-entrant: after a call that returned, a further call behaves like a first one; each simulation sees the contact interface created by its own call, or none if its deck has no contact, and no library is started again after it was shut down.",
"every build, every sequence of calls",
"it is a statement about every history of one object; the program itself calls Run once",
["src/nimble.cc: NimbleApplication::Run 105-150, GetContactInterface, InitializeSubsystems 176-237, FinalizeSubsystems 239-259"])
p("C150","Searching in single precision loses no contact",
"The box corners are rounded to float for the tree search. Every pair found with the corners in double precision is still found, every additional pair has boxes that are apart by at most twice the rounding error, no shallow penetration is missed, the contact forces still sum to zero and exert no moment, and they equal those of a search in double precision unless a node lies so deep behind a face that its boxes do not meet.",
"every contact mesh, displacement field, penalty, schedule of the callbacks, and every rounding that keeps the order of numbers",
"it must hold for every coordinate and every rounding of it; the few boxes of a test rarely touch within a rounding error",
["src/contact/arborx_utils.h: AccessTraits 68-118","src/contact/serial/arborx_serial_contact_manager.cc: ArborXCallback, ComputeSerialContactForce"])
p("C151","Superposition of quasistatic solutions",
"When the internal force is a linear function of the displacement, with a matrix that is symmetric and positive definite at the unconstrained degrees of freedom, and only displacements are prescribed: if the displacements prescribed in one run are alpha times those of a second plus beta times those of a third, with the same final time, then so are all displacements at the end, whatever the numbers of load steps and starting times.",
"every mesh, node sets, list of prescribed displacements (constants or expressions), coefficients alpha and beta, linear force, numbers of load steps and starting times",
"relates every three runs of every linear problem; a test compares a few",
["src/integrators/quasistatic_time_integrator.cc:QuasistaticTimeIntegrator::Integrate","src/integrators/quasistatic_time_integrator.cc:ComputeQuasistaticResidual"])
p("C152","Least energy and reciprocity of quasistatic solutions",
"When the internal force is a linear function of the displacement, with a matrix that is symmetric and positive definite at the unconstrained degrees of freedom: the displacement at the end of every accepted load step has less elastic energy than every other displacement that agrees with it at the held degrees of freedom; and of two accepted load steps of the same body, whatever is held and where, the work of the reactions of the first on the displacements of the second equals that of the second on the first (Betti).",
"every mesh, node sets, conditions, linear force, load step, previous state and competing displacement",
"compares a solution with all other displacements, and all pairs of solutions; a test tries a few",
["src/integrators/quasistatic_time_integrator.cc:QuasistaticTimeIntegrator::Integrate","src/integrators/quasistatic_time_integrator.cc:ComputeQuasistaticResidual"])
p("C153","Accuracy of quasistatic solutions of linear problems",
"When the internal force is an affine function of the displacement whose stiffness at the unconstrained degrees of freedom is at least m, and only displacements are prescribed: whatever the tolerance of the linear solver, the forces left at the end of an accepted load step are at most C times the nonlinear tolerance times the residual at the start of the step, the squared distance to the exact solution is at most the number of unknowns times the square of that bound over m, and superposition of load cases holds up to the sum of the bounds.",
"every mesh, node sets, conditions, linear force, tolerances and limits of both solvers, load steps and previous states",
"bounds the error for all problems and tolerances; a test measures a few",
["src/integrators/quasistatic_time_integrator.cc:QuasistaticTimeIntegrator::Integrate","src/integrators/quasistatic_time_integrator.cc:ComputeQuasistaticResidual"])
p("C154","An equilibrium is kept",
"In a quasistatic run, with any internal forces and any element state: if a load step starts from a displacement whose forces vanish at every unconstrained degree of freedom, in a set of element states that evaluating the forces there and finishing a step does not leave, and the conditions are satisfied and do not change any more, then it and every later load step succeed and end with exactly that displacement, and so do all later outputs. In particular a body without forces at rest, with zero prescribed values, stays at rest and the run finishes.",
"every mesh, node sets, conditions, force law with state, tolerance, output frequency and number of steps",
"an invariant of runs of any length for any force law; a test runs a few steps of one",
["src/integrators/quasistatic_time_integrator.cc:QuasistaticTimeIntegrator::Integrate","src/integrators/quasistatic_time_integrator.cc:ComputeQuasistaticResidual","src/nimble_boundary_condition_manager.h:BoundaryConditionManager::ApplyKinematicBC"])
p("C155","The future does not influence the past",
"If two decks, and the forces, agree until a time T (same conditions on the same node sets with the same prescribed values until T, same masses, time step and output frequency), then whatever final times, numbers of steps, prescribed values and forces they have after T, both runs have the same fields, state and written results after every step that ends before T and is not the last of either run, or both have stopped for the same reason; for explicit runs the displacements at the end of the last step of the shorter run agree as well. In particular a run can be extended without changing its earlier results.",
"every pair of decks, force laws with state, numbers of steps, and times T",
"relates all pairs of runs with a common past; a test compares a few",
["src/integrators/explicit_time_integrator.cc:ExplicitTimeIntegrator::Integrate","src/integrators/quasistatic_time_integrator.cc:QuasistaticTimeIntegrator::Integrate","src/nimble_boundary_condition_manager.h:BoundaryConditionManager::ApplyKinematicBC"])
p("C156","The order of the boundary conditions does not matter",
"In explicit runs, when no two prescribed velocities or displacements act on the same degree of freedom and no two initial velocities do, listing the conditions in any other order gives the same run: the same fields, states and written results. Where two conditions act on one degree of freedom the order matters: the last one wins.",
"every deck, every permutation of its conditions, every force law with state, any number of steps",
"ranges over all permutations and decks; a test tries a few orders",
["src/nimble_boundary_condition_manager.h:BoundaryConditionManager::ApplyKinematicBC","src/nimble_boundary_condition_manager.h:BoundaryConditionManager::ApplyInitialConditions","src/integrators/explicit_time_integrator.cc:ExplicitTimeIntegrator::Integrate"])
p("C157","The origin of time does not matter",
"If all times of a deck (initial and final time, and the time in its expressions and forces) are later by the same amount, every step of the run has the same fields and states, and the written results are the same with times later by that amount.",
"every deck, every shift of time, every force law with state, any number of steps",
"relates all pairs of shifted runs; tests start at time zero",
["src/integrators/explicit_time_integrator.cc:ExplicitTimeIntegrator::Integrate","src/integrators/quasistatic_time_integrator.cc:QuasistaticTimeIntegrator::Integrate","src/nimble_boundary_condition_manager.h:BoundaryConditionManager::ApplyInitialConditions"])
#--APPEND--
with open('/verif/properties.jsonl','w') as f:
    for q in P: f.write(json.dumps(q)+"\n")
print(len(P))
