# Formal model of Classification-CPP: design

`/repo` (cpp, read as text only, never built or run) is modelled function by function in
Lean 4 under `lean/Verif/Model/`; small independent specifications are in
`lean/Verif/Spec/`; the property theorems are in `lean/Verif/Props/`; auxiliary lemmas are
in `lean/Verif/Lemmas/`.  `properties.jsonl` lists the properties, `MANIFEST.json` maps each
one to its theorems, `seeded/LOG.jsonl` records the mutation experiments.

## 1. How the code is modelled

* **Objects are values.**  An `Instance` is a class label, a list of attributes and, for
  `CompositeInstance`, the list of possible labels.  An `InstanceList` is a list of
  instances.  Pointer identity is modelled only where it is observable (filters mutate shared
  instance objects: `Model/Filter.lean` uses a heap).
* **`double`** is an abstract type `F` with the operations the code uses (`Model/Dbl.lean`,
  class `Dbl`), *without any law*.  Every model definition is polymorphic in `F`.  Theorems
  about control flow, counting and routing hold for every `F`, hence for IEEE doubles with
  NaN, rounding and overflow.  Theorems that need a total order assume the laws only for
  values that are "ordinary" (not NaN): class `LawfulOrd`.  Theorems that need exact
  arithmetic are stated for the instance `F = ℝ` and say so ("exact arithmetic").
  Theorems about rounding use `F = D53 L` (`Model/DblD53.lean`): 53-bit significands, round to
  nearest even, NaN and infinities, but an unbounded exponent (no overflow, no subnormal
  numbers) and one zero; the functions of `<cmath>` are the parameter `L`.  Theorems about the ends of
  the range use `F = B64 L` (`Model/DblB64.lean`): the same with subnormal numbers and overflow.
* **`int`** is `Int` or `Nat`; overflow is not modelled, except in the sign test, where it
  matters (`Model/StatTest.lean` models 32-bit wrap/UB explicitly).
* **Failures.**  `Res α = Except Err α` with `Err.throw` (C++ exception that reaches the
  caller) and `Err.ub` (undefined behaviour: out-of-range `operator[]`, invalid downcast,
  null dereference, read of uninitialised memory, missing return).
* **Loops** are folds or structural recursions in the same order as the C++ loops.
  Unbounded loops (solver, tree growth, feature selection) are modelled as step relations /
  step functions, or with fuel plus a theorem that enough fuel always exists.
* **Randomness** (shuffle, index permutation, bootstrap draws, random labels, weight
  initialisation) is a parameter of the model function; theorems quantify over it.

## 2. External libraries (contracts, trusted)

Not in /repo; modelled in `Model/Deps.lean` after the published Starlang libraries:
`CounterHashMap<string>` and `DiscreteDistribution` (ordered string-keyed maps: iteration in
key order; `max`/`getMaxItem` return the first key with the strictly greatest count),
`KFoldCrossValidation` / `StratifiedKFoldCrossValidation` (test fold k of a shuffled list is
the index range [kN/K, (k+1)N/K), training fold the rest), `Bootstrap` (N draws),
`RandomArray::indexArray` (a permutation of 0..n-1), `StringUtils::split` (inverse of join
on non-empty separator-free fields), `Vector`/`Matrix` arithmetic, distribution functions of
the statistical tests (uninterpreted), `std::stable_sort` (the stable ordering, if the comparison
is a strict weak ordering of the elements; C200 says when it is).

## 3. Trusted base

* Lean 4.33.0 kernel; the axioms `propext`, `Classical.choice`, `Quot.sound`.  No theorem uses
  another axiom: no `sorry`, no `native_decide`, no `bv_decide`, no own axioms.  Of the
  745 theorems listed after C229 was added, 63 need fewer than these three.
  `#print axioms Verif.<name>` prints the list for a single theorem.
* The correspondence between the C++ text and the Lean definitions (each definition cites
  file and lines and names its simplifications), including the contracts of section 2.
* The specifications in `lean/Verif/Spec/` (short, separate from the model).
* Trusted parameters of the persistence model (`Model/Stream.lean`): `Txt F` (how a double is
  printed and what `std::to_string`, `stof`, `stoi` answer) and `MathLib F` with contract
  `LibOk` and `MatOk` (the Math library reads back the distributions, vectors and matrices it
  wrote), `SplitsCommas`/`SplitsWords` (string splitting; met by `plainSplit`).  Theorems
  take them as hypotheses; `plainLib_ok`, `intTxt` and `survives_int` show they can be met.

### Modelled code

| /repo/src | model | what |
|---|---|---|
| Attribute, Instance | Attribute, Instance, Memory | all constructors, accessors, one-hot views, projection, composite labels; shared attribute objects, destructors |
| InstanceList | InstanceList, Partition, Persist | sorting, bagging, distributions, statistics, divisions, covariance, reading and writing |
| DataSet | DataSet | definition edits, admission, statistics, both file readers, writer |
| Performance | Performance | confusion matrix, results, experiment summaries, reading results from a file |
| Model (Model, Dummy, Random, Validated) | Performance, Parametric, Persist | test, majority, discrete check, train/predict/probabilities/save/load |
| Model/NonParametric, DistanceMetric | Knn, Parametric | neighbours, vote, Euclidean and Mahalanobis distance |
| Model/Parametric | Parametric, Persist | Gaussian argmax, LDA, QDA, naive Bayes, k-means |
| Model/DecisionTree | DecisionTree, TreeMemory, SoftTree, Persist | conditions, growth, three split searches, pruning, stump, soft trees; nodes as objects, destructors |
| Model.h (virtual functions) | Dispatch | which class answers predict and predictProbability; what soft trees inherit |
| Model/Ensemble | DecisionTree, Persist | bagging, random forest, vote, save/load |
| Model/NeuralNetwork | NeuralNetwork, NetState, Persist | linear and multi-layer perceptron, deep network, autoencoder; input and output fields as state |
| Model/Svm | Kernel, Solver, Svm, Persist | node lists, kernels, QMatrix, the whole SMO solver with shrinking, training, prediction |
| FeatureSelection | FeatureSelection, Selection | subsets, candidate operators, search loop |
| Filter | Filter | the three discrete filters, Normalize, Pca (heap of shared instances) |
| Experiment | Experiment, Learners | all runs (single, K-fold, M x K, stratified, separate test, bootstrap) |
| StatisticalTest | StatTest | all tests and results |
| Parameter | parameters of the training functions | plain records |

### Not modelled

Memory allocation, ownership and freeing (`delete`, destructors) of anything but instances and
attributes (`Model/Memory.lean`, C142–C145) and decision trees (`Model/TreeMemory.lean`, C157–C158); file system errors; integer overflow except in the sign test; the inside of the
libraries of section 2 (random generators, distribution functions, matrix inversion and
eigenvectors, whose results are parameters with stated contracts); console output; the bits of
IEEE rounding beyond 53-bit significands (either no law is assumed, or the theorem says "exact arithmetic",
or it uses `D53`: correctly rounded 53-bit arithmetic without overflow, underflow and signed zeros, C168–C177, C180;
or `B64`: binary64 with its range, without signed zeros, C209).

## 4. Plan per property

| property | model module | how it is proved |
|---|---|---|
| C01–C06 | Attribute, Instance | structural induction on attribute lists / one-hot loop |
| C07–C12 | InstanceList, Deps | fold invariants relating counters to `List.count`, dedup to first occurrences |
| C13–C15 | InstanceList | `std::stable_sort` = insertion sort (within the contract, C200); permutation parameters |
| C16–C19 | InstanceList | exact arithmetic over ℝ, `List.sum` algebra; mode via counter lemmas |
| C20–C25 | Partition | routing folds = filters; loop counters for the ratio/stratified splits |
| C26–C30 | DataSet | invariants over histories of `addInstance` |
| C31–C32 | DataSet/File | line-based reader model, join/split contract, print/parse hypothesis |
| C33–C42 | Performance | fold invariants for the nested counters; algebra over ℝ |
| C43–C48 | Model, Dummy, Random | counting folds; argmax lemmas |
| C49–C54 | Knn, Distance, Parametric | sortedness of prefixes; argmax folds; ℝ inequalities |
| C55 | all models | equality of trained states; refuted by witness for the accumulating classifiers |
| C56–C65 | DecisionTree, Ensemble | recursion on data size; routing lemmas from the partition theorems; counting |
| C66–C73 | Svm | merge = sparse sum; solver invariants over step relation; voting counts |
| C74–C79 | NeuralNetwork, SoftTree | ℝ algebra; loop invariants over epochs; induction on tree |
| C80–C83 | FeatureSelection | search-state invariants, termination measure |
| C84–C87 | Experiment | fold contracts, loop unrolling |
| C88–C93 | StatTest | algebra over ℝ, case analysis |
| C94–C98 | Filter | position-walk invariant of `removeDiscreteAttributes`, heap folds |
| C99–C103 | Stream, Persist | character-stream reader and writer; round trips from a `Restores` combinator; universal refutations where formats disagree |
| C104–C106 | Parametric, Matrix | ℝ algebra of the discriminants, comparison with the log posterior |
| C107 | DecisionTree | search folds return the argmin of the entropy of all candidate splits, the first one in a stated order (`Split.Before`) |
| C108–C109 | Experiment, Deps | fold contract, arithmetic of the cut points |
| C110–C111, C113 | DataSet | line reader induction, list edits |
| C112 | InstanceList | column sums of one-hot blocks over ℝ |
| C114 | Filter | projection on given eigenvectors, selection loop |
| C115–C117 | NeuralNetwork | `HasDerivAt` of the likelihood / squared error in every weight equals the update |
| C118–C119 | NeuralNetwork | shape invariants over layers and epochs; no failure outcome is reachable |
| C120–C122 | SoftTree | loop invariants of `learnParameters`, `HasDerivAt` for the leaf vectors |
| C123–C129 | Solver, Svm | KKT gap from the stopping test, strict decrease per step, finiteness, margins, blocks |
| C130–C133 | Stream, Persist | as C99–C103 |
| C134 | DecisionTree | invariant `Grown`: every node holds the class distribution of the training instances routed to it; pruning keeps it |
| C135 | NeuralNetwork | the fold over the labels inserts the outputs; refuted by zero weights |
| C136 | DecisionTree, Partition | totality of pruning on trees whose tests are defined for the training types; class counts of the split |
| C137 | DistanceMetric | sums over the matrix entries |
| C138 | KnnModel, EuclidianDistance | from C49–C51: the first of the stable sort has distance 0 |
| C139 | DecisionNode, DecisionTree | two sorted orders differ by exchanges of equal values, which the sweep does not see; simulation of the two searches, then induction over the growth |
| C140 | DummyModel, Parametric | the closed forms of C47, C53, C54, C104–C106 are invariant under reordering |
| C141 | KnnModel | refuted on ties; the sorted candidates differ by exchanges of equal distances |
| C142 | Instance, filters (objects in memory) | simulation between memory with shared objects and values, by induction over the program |
| C143 | Instance (destructor) | the simulation relation gives separateness; induction over the deletions |
| C144 | Instance, filters | invariant: every living attribute has an owner |
| C145 | KnnModel on memory | frame theorem of C142 |
| C146 | DecisionNode(ifstream), TreeEnsembleModel::load | mutual induction over the tree; predictions compared by induction |
| C147 | load functions on a used object | simulation between the run on the old and on a new object |
| C148 | the other load functions | composition of reading lemmas, induction over lists |
| C149 | KMeansModel serialize/load | evaluation of the reader on the written text |
| C150 | DecisionNode constructor | strict convexity of x log x: a decisive attribute always allows a split that lowers the entropy; induction over the optimal tree; exclusive-or counterexample |
| C151 | DecisionNode constructor | induction over the grown tree |
| C152 | Normalize | mean and deviation of affinely mapped columns, C98 |
| C153 | NaiveBayesModel | C106 and invariance of standardised deviations |
| C154 | LdaModel, QdaModel | C104, C105; congruence of the covariance matrix by a diagonal matrix; predictions depend on the order of scores only |
| C155 | KnnModel, KMeansModel, EuclidianDistance | distances scale by one factor; stable sorting commutes with order-preserving maps |
| C156 | DecisionNode, DecisionTree, DecisionStump, ensembles | simulation: growing (and pruning) on recoded data gives the recoded tree |
| C157 | DecisionNode/DecisionTree objects with addresses | footprints; the code on objects refines the value model, pruning by induction on the tree with a frame condition |
| C158 | ~DecisionTree, ~DecisionNode, ~TreeEnsembleModel, ~SoftDecisionNode | footprints and counting of objects in use |
| C159 | KnnModel, DummyModel, ensembles, DecisionNode | equality of the candidate sets, of the attribute subsets after sorting out the shuffle, induction on the tree |
| C160 | DataSet::getClasses, info, getClassInstances | induction on the label list; C07, C20, C28 |
| C161 | CompositeInstance::setPossibleClassLabels | directly |
| C162 | KFoldRun, StratifiedKFoldRun with each classifier as `Learner` (Model/Learners) | C84, induction on the session; invariants of the maps of LDA, QDA, naive Bayes |
| C163 | NeuralNetworkModel with its fields x and y as state (Model/NetState) | case analysis on how the question ends |
| C164 | predict and predictProbability of dummy, k-NN, ensembles, trees | C44, C47, C134 |
| C165 | SubSetSelection::execute on top of the runs and classifiers (Model/Selection) | C81-C83; independence of each run of the state of a forgetting classifier |
| C166 | predict of K-NN, nearest mean, naive Bayes, LDA, QDA, SVM on reordered data (Spec/Columns: `reorder`) | scores are sums over columns or quadratic forms, unchanged by a permutation; for trees a counterexample, and a simulation of the two optimal trees when no two columns tie (`ColumnTie`) |
| C167 | predict and predictProbability of all classifiers (Spec/Blind: `Blind`) | unfolding; induction on nodes; composition with C43 |
| C168 | growing a tree over 53-bit floating point (Model/DblD53: `D53`, rounding to nearest even; Lemmas/FloatLog: log at five points from its series) | invariant: the best split so far is proper; nearest-value property of rounding; refuted by showing that the node passes all its data to a child |
| C169 | Partition over `D53` (Model/DblD53) with the error bounds of Lemmas/Float53 | closed form of the loops; relative error of three roundings; refuted by evaluation |
| C170 | ConfusionMatrix, performance classes, Model::test over `D53` | sums of counts are exact below 2^53, one rounding per quotient; complement exact by Sterbenz' argument; spacing of fractions |
| C171 | column statistics and paired tests over `D53`, `pow(.,2)` and `sqrt` with hypothesis `SignCorrect` | induction over the loops with invariant "non-negative, 0 iff all terms are"; refuted by evaluation |
| C172 | EuclidianDistance, KnnModel over `D53` | induction over the attributes with the same invariant; C49, C50 for the neighbour |
| C173 | all classifiers, generic arithmetic; renamed instances and maps in Spec/ClassNames | each function commutes with order preserving renamings of all strings (Lemmas/Rename*), by induction over its loops; then transfer to the names that occur: two order preserving embeddings of all strings that know the names only by their rank |
| C174 | histories of calls on InstanceList | induction over the history |
| C175 | normalizeOutput in 53-bit arithmetic, exp a parameter with the range of binary64 | rounding is monotone, so a sum of non-negative numbers is not less than its terms; relative error per addition; IEEE rules for infinities |
| C176 | percTrain in 53-bit arithmetic | invariant with bounds in units of a power of two, which rounding cannot cross; propagation of NaN through one step; one evaluated training |
| C177 | the solver (start, run, solve) in 53-bit arithmetic | invariant over all steps; rounding is monotone, so clipping is exact; relative error of the few operations that move a pair; the chosen pair has a nonzero numerator, so no 0/0 arises |
| C178 | both readers of data files on every beginning of a text | the lines of a beginning are the first lines; every line adds at most one instance; concrete counterexample for guessed types |
| C179 | the stream constructors of SvmModel, NodeList, Node on cut files | reading the complete part restores it; a failed stream leaves the variable alone, so the loop appends the last value again |
| C180 | the counting classifiers in 53-bit arithmetic | counts are exact, division is correctly rounded, rounding is monotone and separates fractions with a denominator below 2^53; relative errors add up to at most 2^-53 |
| C181 | adding one instance (tree) of the predicted class | the sorted candidates gain one entry in front of its equals, the first k lose at most their last; a majority that gains a vote while others gain none stays the first majority |
| C182 | a training list with every element written n times | counts, means and entropies scale or stay; stable sorting commutes with repeating; the optimal tree is determined by candidates, entropies and order, all unchanged; a counterexample of six instances for naive Bayes |
| C183 | random forests on data with n attributes, subset smaller than n | the list of tried positions is a function of n alone; every step of the search and of the partitions commutes with overwriting other attributes |
| C184 | parameter objects of all classes, unchecked casts as undefined behaviour, one training function per classifier | cases on the class of the object |
| C185 | the same | unfolding: the argument does not occur in what is computed; random forests by C159 |
| C186 | training with the members x and y of the object in view (NetState) | induction over the instances and epochs; concrete runs for the refutation |
| C187 | constructor of SoftDecisionNode with its random numbers, growth and training | the tree without its scratch values is unchanged by a split that is undone |
| C188 | doShrinking of the SMO solver on the reachable states | the loops keep every row that passes the comparison with the thresholds, which are the best offers of the active rows |
| C189 | the classifiers as modelled, trained on the data with a column inserted | distances shift by a constant; splits on the column keep the entropy and the others correspond in order; concrete runs for naive Bayes |
| C190 | the classifiers as modelled, trained on `a ++ b` and on `a ++ y :: b`; doubles as 53-bit numbers with NaN and infinities | NaN spreads from the covariance or deviation of a single instance to the score; candidates and scores of the old classes are the same |
| C191 | training of the networks with an engine whose numbers fill a matrix row by row | both layers are made by the same function of the sizes; place i * columns + j identifies the draw |
| C192 | predict of every classifier on composite instances | each composite answer is drawn from a filtered or folded list of possible classes; SVM and soft tree do not read it |
| C193 | predict on an instance and on the same instance with possible classes | both answers are maxima, of the score or count, over a list and a part of it that contains the first maximum; stable sort commutes with filter |
| C194 | the statistics as functions of the list of error rates | counting is invariant under permutations; the sum of the five variances as a sum over ten folds and their partners |
| C195 | the same | numerator and denominator scale by the same factor |
| C196 | `test` and `testClassifier` on a list and a permutation of it | the matrix is determined by the multiset of (class, answer) pairs because maps are sorted |
| C197 | training and prediction on data with the values of binary attributes wiped out | every function that reads an attribute skips binary ones or reads them through `toVector`, which has no entry for them |
| C198 | virtual dispatch (`AnyModel`), soft nodes seen as decision nodes | case analysis; C164, C135, C47 |
| C199 | `serialize` and `loadModel` inherited by soft trees | induction on the tree |
| C200 | the comparisons handed to `std::stable_sort` | strict weak orders from the laws of IEEE comparisons |
| C201 | votes of an ensemble as a multiset | counting does not depend on the order; induction on permutations |
| C202 | `expand`: indexed attributes as columns | same numbers give the same classifiers (`SameInputs`); column means by induction on the columns; trees: each split on an indexed attribute corresponds to a threshold ½ on one of its columns, in the same order, then induction over the optimal trees |
| C203 | filters applied one after the other | without discrete attributes a discrete filter is the identity; mean 0 and deviation 1 make `Normalize` the identity |
| C204 | two conversions on one heap | the coding is a function of the value table; tables are sorted, hence unique |
| C205 | `PrunedAlone`: pruning a subtree on the instances that reach it | right answers of a tree are those of a subtree plus a number that does not depend on it; mutual induction over tree and children |
| C206 | `Model/Failing.lean`: calls that give the object and the outcome | equal to the other models when the call returns; case analysis on the failing statement; induction over the loop for the steps done |
| C207 | `Spec/Between.lean`: a point between two instances | differences of scores are affine in the instance, so the first greatest score stays the first greatest one |
| C208 | covariance equal to one matrix in all classes | pooled covariance of equal covariances; the scores of two classifiers order the classes alike (`gaussPredict_order`) |
| C209 | `Model/DblB64.lean`: binary64 with bounded exponent | nearest representable number, monotone rounding; magnitudes bounded through the loops; split value infinite so that `neighbours_loop` applies |
| C210 | `Model/Shared.lean`: `Generator`, `RandomCall`, `runCalls` | induction on the sequence of calls; the numbers drawn while a soft tree grows are counted along the induction of C120 |
| C211 | `Model/Shared.lean`: `ListUse`, `listAfter` | induction on the uses; sorting by class twice is sorting once (blocks of C14); C139 and C140 for the classifiers trained afterwards; concrete runs |
| C212 | `Model/NeuralNetwork.lean`: `epochLoop` with two numbers of epochs | the longer loop continues the shorter one; each epoch keeps the best weights or replaces them by better ones; a concrete training for the refutation |
| C213 | `Spec/Epochs.lean`: `Presented`, `OnceAndAgain`, `SomeOrderNever` | the orders are the powers of one permutation, which has a finite order and commutes with its powers, while transpositions of three places do not commute |
| C214 | `Spec/Answers.lean`: `AnswersAll` over the models of `Model/Parametric.lean`, `Model/Knn.lean`, `Model/Performance.lean` | every loop of training and scoring is shown to succeed on instances of one type, with an invariant that each class has its statistics; a two-column table for the refutation |
| C215 | `Spec/Box.lean`: `InBoxOf`, `EndsAt` over `Model/DecisionTree.lean` | induction over the path; a comparison with a threshold that holds (fails) for both ends holds (fails) between them; case analysis of the split for stumps |
| C216 | `Spec/Beyond.lean`: `SameWithin` over `Model/DecisionTree.lean` | both children of a numeric split get training instances, so the threshold lies between two training values; induction over growth and over pruning |
| C217 | `Spec/Towards.lean`: `Towards` over `Model/Knn.lean` | the difference of two squared distances is an affine function of the position, so it keeps its sign on the way; the first of equally near instances stays the first |
| C218 | `Model/Knn.lean`; the statement uses filters of the training lists by distance only | a stable sort commutes with filtering, and the small elements come first in a sorted list |
| C219 | `LowerErrors` over `Model/StatTest.lean` | Pascal's triangle: one more win raises the binomial tail, one more loss lowers it; shifting all differences shifts the mean and keeps the deviation |
| C220 | `ComputedFrom` in `Spec/DerivedColumn.lean`, trees as in C107/C189 | merging answers of a question never lowers the remaining entropy (Jensen, `Props/Refine.lean`), so an earlier split is at least as good as any split of the new column and comes first; the generalised induction of C189 then relates the two trees |
| C221 | `inAxes` in `Spec/Axes.lean`; training and prediction as in C104, C105, C137, C155 | the scatter matrix S becomes A S Aᵀ, so Mahalanobis distances stay and log-determinants shift by the same number for every class; Euclidean distances are multiplied by s² when Aᵀ A = s² I |
| C222 | `normalisedLike`, `alongAll` in `Spec/Preprocess.lean`; filters on the heap as in C98 and C114 | what the filters do to the heap is a change of units (C98) or of axes (C114) of every instance, and C153, C154, C156 and C221 apply to every part of the data |
| C223 | `KernelKept` in `Spec/SvmAlike.lean`; solver and machine of C66-C69, C123, C129 | two runs of the solver stay in states that differ only in the vectors, whose kernel values are proportional, and in the multipliers and the penalty, inversely so (`SmoAlike`), through every exchange of rows, shrinking and round; the same thresholds and decision values follow, as prediction reads the kernel only |
| C224 | `onScale`, `Node.sketch` in `Spec/OnScale.lean`; trees and forests of C38-C45 | the sweep over the sorted data compares neighbouring values only, and halfway between two neighbours no training value lies, so the two thresholds divide the data of the node alike; induction over the recursion of the constructor, walking the children for every instance of the node |
| C225 | `InnerKept`, `SumsKept` in `Spec/Inner.lean`; training of the three networks of `Model/NeuralNetwork.lean` | simulation of the two runs: a change of the first matrix by `eta * outer(delta, input)` changes the weighted sums of an instance by `eta * delta` times the inner product of the two inputs, so `SumsKept` is kept by every step; everything behind the first layer sees the sums only |
| C226 | `HiddenRenumbered` in `Spec/HiddenOrder.lean`, `DeepRenumbered` in `Spec/DeepOrder.lean`; `mlpTrain`, `deepTrain`, `autoTrain` | simulation of the two runs over instances and epochs: the hidden vectors are rearrangements of each other, the outputs are sums over the hidden nodes, and the two weight changes are rearranged alike |
| C227 | `Model/Printed.lean` | texts as strings; one-digit numbers have texts of length one, so the concatenation can be taken apart; counterexamples for the general case |
| C228 | `Model/Knn.lean`, `Model/Parametric.lean` | a stable sort commutes with a map that keeps the comparison; the squared distance from a class mean written with inner products only |
| C229 | `Model/Performance.lean` | every measure as a function of the four counts; sums of counts below 2^53 are exact in any order |

When the code violates a property as a user would state it, the full statement stays in
`properties.jsonl`, its negation is proved with a concrete witness, and the part that does
hold is proved with suffix `_partial`; section 5 lists these discrepancies.

## 5. Discrepancies found

Where the code does not do what a user relies on.  Each entry names the theorem that proves it
of the model; entries marked (text) were found while reading and concern unmodelled aspects.

**Instances and data sets**

* C05: `CompositeInstance::getSubSetOfFeatures` is inherited, so a projected composite instance
  loses its possible labels (`C05_refuted`).
* C06: the constructor of `CompositeInstance` takes the first label as class and removes it from
  the possible labels (`C06_refuted`).
* C26: `DataSet::checkDefinition` compares only the attributes the instance has; shorter
  instances are admitted (`C26_refuted`).
* C31: continuous values are written with six decimals (`C31_numbers_refuted`); a discrete value
  with a comma splits a row (`C31_comma_value`).
* C111: without declared types a class or value that looks like a number changes the type of
  its column (`C111_numeral_refuted`).
* (text) `Instance`'s destructor deletes its attributes, which projected instances share.

**Results and experiments**

* C37: precision, recall and F-measure of a label that never was the actual class are read from
  uninitialised memory (`C37_refuted`; reachable through `Model::test`: `C37_reachable`).
* C41: `meanClassificationPerformance` and friends look only at the kind of the result added
  last (`C41_refuted`, `C41_detailed_refuted`, `C41_file_refuted`).
* C86: all M repetitions use the same seed, hence the same folds (`C86_refuted`).

**Statistical tests**

* C89: the paired t test of one experiment divides by zero and returns NaN
  (`C89_single_experiment_refuted`).
* C91: the `int` factorial of the sign test overflows from 13 differences on (`C91_overflow`).
* C93: `compare` of the combined 5x2 F test always throws (`C93_refuted`).

**Classifiers**

* C53: the mean of a binary or indexed column is a null attribute, dereferenced by k-means
  (`C53_refuted`).
* C55: training twice keeps the old statistics (LDA, QDA, naive Bayes: `emplace`), appends (tree
  ensembles, SVM) or throws (deep network): `C55_*_refuted`.
* C106: the naive Bayes score omits the logarithm of the deviations (`C106_refuted`).
* C116: the TANH derivative applies tanh twice (`C116_tanh_refuted`); in a deep network the
  vector of ones has the length of the number of layers, the resulting mismatch is swallowed and
  no weight ever changes (`C116_deep_tanh_refuted`, `C116_deep_tanh_training_refuted`).
* (text) `AutoEncoderModel::predictInput` has a path without `return`; its training throws when
  every class has a single instance.
* C121: a soft tree node whose growing part misses a class reads past the end of the leaf vectors
  (`C121_refuted`).
* C122: the gradient of the split of a soft tree uses random numbers instead of the leaf vectors
  (`C122_split_refuted`).
* C168: in double precision growing a tree can recurse for ever (`C168_refuted`). Two causes.
  DecisionNode.cpp:151-161 computes the entropy of a division by an index that *all* instances
  have as `(0 + H*n)/n`, which rounds below `H` for some class counts (12 and 1, for instance);
  the division is then chosen and its first child gets all the data. And the split value
  `(a + b) / 2` (line 182) of two neighbouring doubles can round to the larger one; the left child
  gets all the data.

**Class probabilities, pruning**

* C135: networks return unnormalised outputs as probabilities (`C135_refuted`).
* C141: among equally distant training instances the k-NN classifier takes the earlier one, so
  the prediction depends on the order of the training instances (`C141_refuted`).
* C136: when every instance is held out for pruning, growing throws (`C136_refuted`).
* (text) `ConfusionMatrix`'s scratch arrays are allocated with `new[]` and freed with `delete`
  (ConfusionMatrix.cpp:158-159); a copied `DecisionTree` shares its nodes with the original and
  both destructors free them.

**Objects in memory**

* C142: `getSubSetOfFeatures` copies attribute pointers; writing the projection changes the
  original (`C142_refuted`).
* C143: deleting both the original and the projection deletes an attribute twice; reading the
  projection after the original is gone reads freed memory (`C143_refuted`).
* C144: `removeAttribute` and `removeAllAttributes`, and the filters that use them, leak
  (`C144_refuted`).
* C145: k-NN keeps the caller's instances (`C145_refuted`).
* (text) `Attribute` has no virtual destructor, so `delete` on an attribute is undefined by the
  letter of the standard; the model takes it to release the object.

**Support vector machine**

* C71: after shrinking the solution is copied back in place and multipliers can be overwritten
  (`C71_refuted`).
* C127: two equal vectors make the quadratic coefficient zero (infinite step, clipped).
* (text) `train` sorts the caller's list in place; there is no usable default constructor.

**Filters**

* C94–C96: the value `,` is looked up as `comma` and not found (`C94_comma_refuted`); an instance
  object listed twice is converted twice (`C94_repeated_refuted`).
* C97: `convertDataDefinition` edits a copy (`C97_refuted`).
* C98: a constant column becomes NaN (`C98_constant_column`); an object listed twice is
  normalised twice (`C98_repeated_refuted`).
* (text) `Pca` without a requested number of dimensions walks an iterator that is never
  initialised (Pca.cpp:51-60).

**Saving and loading**

* C99: the parameters of an SVM are not saved; a loaded machine dereferences an uninitialised
  pointer (`C99_refuted`).
* C100: a random classifier writes no seed but reads one (`C100_refuted`).
* C101: the tree format that is written is not the one that is read (`C101_refuted`, and
  `C101_forest_refuted` for bagging and random forests).
* C102: LDA writes a line that the loader does not expect (`C102_refuted`).
* C103: instance lists come back empty (`C103_refuted`).
* C132: neural networks do not save their weights (`C132_refuted`).
* C133: QDA's quadratic terms and the attribute distributions of discrete naive Bayes are not
  saved (`C133_refuted`, `C133_naive_bayes_refuted`).
* C147: naive Bayes, LDA and QDA keep old weights for classes they knew, networks and random
  classifiers keep old labels in front of the new ones, forests and deep networks keep old trees
  and weights (`C147_lda_refuted`, `C147_perceptron_refuted`, `C147_forest_refuted`).
* C149: saved nearest-mean models come back without means (`C149_refuted`).
* C150: greedy growing stops at the root on the exclusive or of two attributes, although every
  training instance is unique (`C150_refuted`).
* C158: the values of conditions (`new DiscreteAttribute` etc., DecisionNode.cpp:46-84) are never deleted, one per
  non-root node. `train` overwrites `root` without deleting the earlier tree. `DecisionTree` has the implicit copy
  constructor, so destroying a copy and the original deletes the nodes twice. `DecisionTree t;` without training deletes
  an indeterminate pointer. `~SoftDecisionNode` deletes the children and then `~DecisionNode` does so again. (Deleting a
  `SoftDecisionNode` through `DecisionNode*`, as `~DecisionTree` of a soft tree does, is undefined already because the
  destructor is not virtual; not modelled.)
* C160: `getClasses` (DataSet.cpp:212-220) reads label 0 of the distinct labels, so it and `info` throw on a data set
  without instances.
* C161: `setPossibleClassLabels` (CompositeInstance.cpp:65-67) appends to the existing list instead of replacing it.
* C162: `LdaModel::train`, `QdaModel::train` and `NaiveBayesModel::train` insert into maps that already hold the classes
  of the first fold, and `std::map::insert`/`emplace` keep the old value: from the second fold on K-fold runs test with statistics
  learned from test instances. Ensembles append trees; deep networks throw in the second training.
* C163: networks catch the size mismatch of an ill-fitting instance and answer with the output computed for the previous
  question.
* C164: for a composite instance dummy and tree predict among the possible classes but report the probabilities of all;
  k-NN without a candidate neighbour predicts the first possible class and reports no probabilities.
* C165: feature selection shares one classifier object between all subsets; with LDA forward selection returns a subset
  that a one-feature extension improves from 5/8 to 1 (`C165_refuted`).
* C166: a decision tree uses the first of two columns that separate the training data equally well, so exchanging them
  changes the prediction of an instance that differs in them (`C166_refuted`).
* C169: in double precision a stratified split of 14 and 11 instances in half puts 8 of the 14 in
  the first part, `25 * (14/25) * 0.5` being a little more than 7 (`C169_refuted`).
* C171: in double precision a constant column can have a positive standard deviation (0.1 three
  times), and the paired t test accepts ten equal differences (`C171_refuted`).
* C175, C176: `normalizeOutput` (NeuralNetworkModel.cpp:39-47) exponentiates the activations as they are, so an activation of 710 or more gives inf/inf = NaN, and activations that are all below -745 give 0/0 = NaN. NaN spreads to all weights within two training instances, after which the network predicts its first class for everything. Unscaled data (incomes, pixel sums) reach this in the first step.
* C178: a data file whose last line is cut is accepted by the reader that guesses types, and gives an instance with a damaged class or value.
* C179: `SvmModel(ifstream&)` never looks at the stream's state: a file that ends inside the last coefficient row loads normally, with the last value repeated.
* C183: every node of every tree of a random forest draws its attributes with the same seed, hence the same ones (DecisionNode.cpp:135-137): with a subset size below the number of attributes some attribute is never used however many trees there are (`C183_refuted`).
* C185: BaggingParameter's seed, the learning rate of SoftDecisionTreeParameter and, for auto-encoders, the decrease of the learning rate, the validation ratio and the activation function of MultiLayerPerceptronParameter are never read (`C185_refuted`).
* C186: validation of a network on instances with another number of inputs than the first one uses the output left over from an earlier prediction; on a new object this is undefined behaviour (`C186_refuted`, NeuralNetworkModel.cpp predict after a caught exception). `AutoEncoderModel::predictInput` returns nothing after a caught exception (`C186_reconstruction`).
* C187: a soft decision tree whose first split does not pay off on the validation part is never trained at all: it predicts the class with the largest random number (`C187_unsplit`).
* C189: a numeric column with one value makes every score of naive Bayes NaN for instances with that value, and the most frequent class is predicted (`C189_naive_bayes_refuted`); a nominal one shifts the odds towards larger classes (`C189_naive_bayes_nominal_refuted`).
* C190: with a class of one instance LDA gives every plain instance the most frequent class (`C190_lda_refuted`), QDA and naive Bayes never answer that class because of its score (`C190_qda_refuted`, `C190_naive_bayes_refuted`): the deviation is divided by `size() - 1 = 0`.
* C191: all layers of a network start from the same random numbers, because the engine is passed by value or made anew from the seed (`C191_multilayer_refuted`, `C191_autoencoder_refuted`, `C191_deep_refuted`, `C191_deep_tanh_refuted`).
* C192: the support vector machine and the soft decision tree ignore the possible classes of a composite instance (`C192_svm_refuted`, `C192_soft_tree_refuted`).
* C193: ruling out a third class changes the answer of nearest neighbours from one possible class to another; the same for ensembles, and for LDA without a score (`C193_neighbours_refuted`, `C193_ensemble_refuted`, `C193_lda_refuted`).
* C194: the statistic of the 5x2 paired t test depends on which fold comes first (`C194_paired_5x2_t_refuted`).
* C197: no classifier uses a binary attribute (`C197_tree_refuted`, `C197_knn_refuted`, `C197_network_refuted`, `C197_svm_soft_tree_refuted`, `C197_parametric_refuted`); `LaryToBinary`, which makes nothing but binary attributes, therefore removes all information (`C197_lary_to_binary_refuted`).
* C198: `predictProbability` is not overridden by nearest mean, naive Bayes, LDA, QDA, support vector machines (empty map) and soft decision trees (empty map or null pointer): `C198_no_probabilities_refuted`, `C198_soft_tree_refuted`.
* C199: nothing of a soft decision tree but its shape is stored, and it cannot be loaded: `C199_written_refuted`, `C199_read_refuted`, `C199_unsplit_refuted`.
* C200: `std::stable_sort` is called with a comparison that is not a strict weak ordering when a column contains NaN and two different numbers: `C200_file_refuted`, `C200_neighbours_refuted`.
* C202: indexed attributes are overlooked by the Euclidean distance and crash nearest mean, naive Bayes and soft trees: `C202_euclidean_refuted`, `C202_nearest_mean_refuted`, `C202_naive_bayes_refuted`, `C202_soft_tree_refuted`.
* C204: training and test data converted separately are coded differently: `C204_refuted`, `C204_normalize_refuted`.
* C205: pruning goes from the root downwards and can miss the best cut: `C205_best_refuted`.
* C206: naive Bayes, nearest mean, LDA, pruned trees, forests and filters are changed by a call that throws: `C206_naive_bayes_refuted`, `C206_nearest_mean_refuted`, `C206_lda_refuted`, `C206_pruned_tree_refuted`, `C206_forest_refuted`, `C206_filter_refuted`.
* C209: `DecisionNode` computes the split value as `(previousValue + value) / 2`, which overflows for values whose sum is 2^1024 or more: the node splits at infinity, its first child gets all the data, and the recursion never ends. Means, deviations and distances overflow or underflow in the same way.
* C210: random classifiers ignore their seed and share the generator of the process with each other and with soft decision trees, whose training calls `srand` (`C210_refuted`, `C210_reset`).
* C211: `SvmModel::train` sorts the caller's list and `Partition(list, ratio, seed, false)` shuffles it (`C211_svm_refuted`, `C211_split_refuted`).
* C212: the accuracy of the initial weights is never measured; the first epoch with positive accuracy replaces them even if it is worse (`C212_refuted`).
* C213: `shuffle(seed)` creates a new engine with the same seed in every epoch, so the epochs repeat one permutation (`C213_refuted`).
* C214: naive Bayes decides by the first column whether all columns are nominal or all numeric; a table with both kinds gives an invalid cast in prediction or a null pointer in training (`C214_naive_bayes_refuted`).
* C215: the region of a class under a whole tree need not be free of gaps, though the part of each leaf is (`C215_tree_has_gaps`); this is how trees work, not a defect.
* C217: with three neighbours, moving towards the nearest neighbour can change the answer (`C217_refuted`); this is how voting works, not a defect.
* C219: lowering one error of the better classifier can weaken the paired t statistic (`C219_refuted`); inherent in the statistic.
* C220: k nearest neighbours and naive Bayes count a copied column twice (`C220_knn_counts_twice`, `C220_naive_bayes_counts_twice`); inherent in the methods.
* C221: a decision tree answers otherwise when the axes are turned (`C221_tree_depends`); inherent in the method.
* C222: normalising changes which neighbour is nearest (`C222_knn_depends`); inherent in the method.
* C166: networks draw their initial weights by position, so with reordered columns and the same seed the predictions may differ
  (`C166_network_refuted`); with the weights of the first layer reordered like the columns they are the same (`C166_perceptron_partial`,
  `C166_mlp_partial`).
* C227: `KnnInstance::to_string` (KnnInstance.cpp:27) appends the distance with `str += distance`, which converts it to one `char`:
  the fraction is lost and a distance of 128 or more is undefined behaviour (`C227_distance_refuted`, `C227_distance_partial`).
  `DataSet::to_string` (DataSet.cpp:247) writes five numbers without separators (`C227_text_refuted`).
* `SvmModel` and `AutoEncoderModel` do not define the pure virtual `Model::loadModel` (Model.h:28), so a program cannot create objects of these two classes;
  what is proved about them is about a class derived from them that adds `loadModel`. (A fact of the type checker, not of the model.)
* Numbers are written with the six digits of the default stream precision; the restoring
  theorems assume the numbers survive that.
