{
 "C05": {
  "note": "False of the code: projecting a composite instance gives a plain instance (C05_refuted). C05_partial: the possible labels survive exactly when they are the class label alone."
 },
 "C06": {
  "note": "False of the code: the constructor removes the first label from the possible labels (C06_refuted). C06_partial: the class is possible exactly when it is listed again."
 },
 "C26": {
  "note": "The data-set check looks only at the attributes an instance has, so instances shorter than the definition are admitted; the theorems state the exact acceptance test."
 },
 "C31": {
  "note": "Exact for discrete attributes; continuous values are printed by std::to_string with six decimals, so they come back only when that text determines them (hypothesis of the theorem)."
 },
 "C41": {
  "note": "False of the code: a summary looks only at the kind of the result added last and a result read from a file counts as a plain error rate (C41_*refuted). C41_partial: it holds when all results are of one kind."
 },
 "C53": {
  "note": "False of the code for binary and indexed columns, whose mean attribute is a null pointer (C53_refuted). Proved for continuous data."
 },
 "C55": {
  "note": "False of the code for LDA, QDA, naive Bayes (statistics are emplaced into maps that are not cleared), for the ensembles and the SVM (lists are appended to) and for deep networks (training again throws out_of_range, C55_deep_refuted). Proved for k-NN, k-means, the perceptrons and the autoencoder."
 },
 "C106": {
  "note": "False of the code: the score leaves out the logarithms of the standard deviations (C106_refuted). C106_partial gives the exact score; with equal deviations the order is right."
 },
 "C89": {
  "note": "Holds for two or more experiments; with a single experiment the paired t test returns a NaN instead of refusing (C89_single_experiment_refuted)."
 },
 "C91": {
  "note": "False of the code from 13 strict differences on, where the int factorial overflows (C91_overflow, C91_refuted). C91_partial: exact for up to 12 differences, and for any number of them when none is a win."
 },
 "C93": {
  "note": "False for the combined 5x2 F test, for which the method always throws (C93_refuted). C93_partial and C93_t_tests / C93_sign_test: antisymmetry for the other tests."
 },
 "C86": {
  "note": "False of the code: every repetition creates its folds from the same seed, so all M repetitions use one and the same folding (C86_refuted). C86_partial: exactly M*K results, each repetition a valid cross validation."
 },
 "C111": {
  "status": "proved",
  "note": "The hypothesis on names in the first row is needed: C111_numeral_refuted."
 },
 "C94": {
  "note": "False of the code for the value ',' (looked up as 'comma', C94_comma_refuted) and for data sets listing an instance object twice, e.g. bootstrap samples (C94_repeated_refuted). C94_partial: holds for all other data sets that fit their definition; C94_none_left covers all three discrete filters."
 },
 "C95": {
  "note": "As C94: false for the value ',' and for repeated objects (C94_comma_refuted, C94_repeated_refuted); C95_partial for all other data sets."
 },
 "C96": {
  "note": "As C94: for the value ',' the index is -1 (C94_comma_refuted); C96_partial for all other data sets."
 },
 "C97": {
  "note": "False of the code: convertDataDefinition edits a local copy (C97_refuted). C97_partial: the definition is never changed, so it is in step exactly when no attribute was discrete; C97_normalize: Normalize keeps it in step."
 },
 "C98": {
  "status": "proved",
  "note": "Exact arithmetic. A constant column becomes NaN (C98_constant_column); with an object listed twice the claim fails (C98_repeated_refuted), which the quantifier excludes."
 },
 "C116": {
  "note": "False of the code for tanh: the derivative is taken at the wrong argument (C116_tanh_refuted), and a deep tanh network does not learn at all unless its last hidden layer is as wide as there are hidden layers (C116_deep_tanh_refuted). Proved for sigmoid and rectifier nodes at every depth."
 },
 "C121": {
  "note": "False of the code when the split leaves no instance of some class to learn from, for example for a class with one instance: the vectors of the new leaves are then too short and are read past their end (C121_refuted). Proved when every class keeps an instance."
 },
 "C122": {
  "note": "Proved for the vectors of the leaves (C122_leaf_gradient). False of the code for the weights of the split, which use the random numbers stored in `outputs` of the leaves instead of their vectors (C122_split_refuted, C122_outputs_frozen); C122_split_gradient_partial shows that this is the only difference."
 },
 "C68": {
  "note": "Exact arithmetic (division by zero gives 0, where double gives an infinity that is then clipped); every problem whose gradients fit a double."
 },
 "C71": {
  "note": "False of the code: the copy back is done in place, so after shrinking has permuted the rows multipliers may be overwritten (C71_refuted: three points, reported multipliers violate the equality constraint). Proved: the report is right whenever the rows are in their original places, in particular when the solver stops within min(l, 1000) rounds."
 },
 "C125": {
  "note": "Proved for the solver as a parameter; C55_svm_refuted shows why the machine must be without support vectors before training."
 },
 "C126": {
  "note": "The restriction to min(l, 1000) rounds is that of C71 (after shrinking the reported multipliers can be wrong, C71_refuted)."
 },
 "C127": {
  "note": "Exact arithmetic. A vector with two labels makes the quadratic coefficient 0; double then gives an infinite step that is clipped, the exact model a step of 0, so that case is excluded."
 },
 "C129": {
  "note": "The number of rounds is a parameter of the model of solve(); the theorem says that every limit from some N0 on gives the same weights and thresholds."
 },
 "C99": {
  "note": "The data is restored (C99_node_list, C99_svm_data), but the parameters of the SVM are not saved, so predicting with a loaded machine dereferences an uninitialised pointer (C99_refuted, for every machine with a support vector). Hypotheses: numbers survive the six printed digits, labels are words, the Math library reads back what it wrote (LibOk; plainLib_ok is a library that does)."
 },
 "C100": {
  "note": "False of the code for every list of distinct labels without white space: serialize writes size and labels, load reads seed, size, labels."
 },
 "C101": {
  "note": "False of the code for every trained tree (with or without pruning) whose labels are words: loading is undefined for a leaf, and otherwise undefined or gives a single leaf labelled with the empty string or a comparison sign. The same holds for the first tree of a saved forest (C101_forest_refuted)."
 },
 "C102": {
  "note": "False of the code for every LDA model whose first label is not a number: serialize writes an extra line with the number of classes."
 },
 "C103": {
  "note": "False of the code for every list whose first instance has an attribute that is not indexed: a loaded k-NN model has no instances and answers the empty string. The file itself determines the classes and the texts of the values (C103_written_partial, for texts that are single words)."
 },
 "C132": {
  "note": "Labels and number of inputs are restored (C132_labels_restored_partial); the weights are not written at all, so no loader can restore them (C132_refuted)."
 },
 "C133": {
  "note": "False of the code: the terms W of QDA and the attribute distributions of naive Bayes are not written."
 },
 "C130": {
  "note": "The Math library is a parameter with the contract LibOk."
 },
 "C131": {
  "note": "The Math library is a parameter with the contract LibOk; numbers are assumed to survive the six printed digits."
 },
 "C37": {
  "note": "False of the code for a label that never was the actual class: the array entry is never written (C37_refuted; reachable through Model::test, C37_reachable). C37_partial: defined exactly when every label occurs as actual class."
 },
 "C135": {
  "note": "False of the code: the outputs are returned without normalisation (C135_refuted: there are weights for which a trained perceptron gives every class the number 0). Partial: the number of the i-th label is the i-th output, and the predicted label of a plain instance has the greatest."
 },
 "C136": {
  "note": "False of the code when every instance is held out for pruning, e.g. one instance per class (C136_refuted); k-fold cross validation of a pruned tree then throws too (C136_experiment_refuted). Partial: for 0 <= r <= 1 training succeeds exactly if some class keeps an instance for growing."
 },
 "C139": {
  "note": "All instances must declare the same number of values for an indexed attribute (SameValueCounts), as within one data definition."
 },
 "C140": {
  "note": "Continuous naive Bayes, LDA and QDA: at least two instances of every class, as elsewhere; the library's inverse and determinant are parameters that depend on the entries only."
 },
 "C141": {
  "note": "False of the code when equally distant neighbours have different labels (C141_refuted). C141_knn_partial: the order does not matter unless candidates with different labels are equally distant at the distance where the k neighbours end."
 },
 "C142": {
  "note": "False of the code: a feature projection shares its attribute objects with the original (C142_refuted, for every instance). C142_values_partial and C142_frame_partial hold for every program that does not project, and for every program that projects but writes and deletes nothing; C142_filters says that the filters on values are those of C94-C98."
 },
 "C143": {
  "note": "False of the code after a feature projection (C143_refuted, for every instance and non-empty subset). C143_destroy_partial, C143_destroy_all_partial: all programs without projections."
 },
 "C144": {
  "note": "False of the code: attributes taken out of an instance are never deleted (C144_refuted). C144_released_partial: programs that take no attribute out (filters that replace attributes and Pca do)."
 },
 "C145": {
  "note": "False of the code: the classifier keeps the caller's instance objects (C145_refuted). C145_knn_partial: calls that do not concern the training instances change nothing."
 },
 "C146": {
  "note": "For the format that the loader reads, stated separately in Spec/TreeFile. That the library's own serialize writes another format is C101."
 },
 "C147": {
  "note": "False of the code for models kept in maps and lists: old entries stay (C147_lda_refuted, C147_perceptron_refuted, C147_forest_refuted, each for all old objects and files). C147_naive_bayes, C147_lda, C147_qda, C147_forest, C147_random and C147_networks say exactly what the object holds afterwards. C147_unknown_classes_partial: classes unknown to the old object are loaded as into a new one. Readers of k-NN, nearest-mean, trees, dummy and SVM overwrite everything."
 },
 "C148": {
  "note": "For the formats that the loaders read, stated separately in Spec/ModelFiles. What the library's own serialize writes is C99-C103, C132, C133, C149."
 },
 "C149": {
  "note": "False of the code: C149_refuted, for every saved model whose first mean has an attribute that is not indexed."
 },
 "C150": {
  "note": "False of the code: C150_refuted (exclusive or of two discrete attributes: no single split lowers the entropy, so the root stays a leaf). C150_decisive_attribute_partial: true, in exact arithmetic, when one continuous, discrete or indexed attribute never has the same value in two classes."
 },
 "C151": {
  "note": "Leaves: any arithmetic with lawful comparison. Nodes and depth: exact arithmetic (with rounding, a split may leave one side empty)."
 },
 "C154": {
  "note": "Exact arithmetic; the library's inverse and determinant are parameters that satisfy the stated laws; some class scores above -DBL_MAX in both units."
 },
 "C155": {
  "note": "Exact arithmetic. The nearest-mean part is for numeric data with some mean nearer than DBL_MAX in both units."
 },
 "C156": {
  "note": "Exact arithmetic. The index of an indexed attribute stays, its value text may be renamed."
 },
 "C157": {
  "note": "Any arithmetic. Addresses are not reused. The contents of the objects come from Node.grow; that the constructor writes only new objects is part of the model."
 },
 "C158": {
  "note": "Proved: destroying a tree (or a forest of separate trees) deletes exactly its nodes. Violated: one condition value per non-root node is never deleted; a tree trained again loses its earlier nodes; copies are destroyed twice; an untrained `DecisionTree t;` has no root pointer; ~SoftDecisionNode deletes children twice."
 },
 "C159": {
  "note": "Any arithmetic. The k-NN part is for plain instances (composite ones restrict the candidates)."
 },
 "C160": {
  "note": "Violated only for a data set without instances: getClasses and info throw."
 },
 "C161": {
  "note": "Violated: the code appends to the earlier labels; the partial theorem says exactly what results."
 },
 "C162": {
  "note": "Holds for classifiers whose training replaces all they learned (dummy, k-NN, nearest mean, trees, stumps, perceptrons with and without hidden layer). Violated by LDA, QDA and naive Bayes (statistics of the first fold are kept), ensembles (trees accumulate), deep networks (second training throws)."
 },
 "C163": {
  "note": "Violated by networks for instances that do not fit: the exception is swallowed and the previous output is answered with. Random classifiers answer with numbers of a generator the whole process shares: see C210. All other classifiers are functions of model and instance in the model."
 },
 "C164": {
  "note": "Violated for composite instances by the dummy classifier and trees, and by k-NN without a candidate neighbour."
 },
 "C165": {
  "note": "Holds for classifiers whose training replaces all they learned (see C162); violated by LDA, which keeps what it learned from the first subset."
 },
 "C166": {
  "note": "Holds for k-nearest-neighbour and nearest mean (Euclidean distance), naive Bayes on numbers or on nominal data, LDA and QDA with regular covariance matrices, and support vector machines with any kernel (C166_svm_partial), over the reals; violated by decision trees when two columns separate the data equally well, and true of unpruned trees when at no node on the way of the instance two columns tie (C166_tree_partial), and of stumps when no two columns tie (C166_stump_partial), and of bagged trees when this holds on the way through each tree (C166_bagging_partial), and of pruned trees when no two columns tie at any node of the tree before it is pruned (C166_pruned_tree_partial). Networks: the same when the initial weights of the first layer are reordered like the columns (C166_perceptron_partial, C166_mlp_partial, C166_deep_partial; the reconstruction of an autoencoder is reordered like the columns, C166_autoencoder_partial), not when the initial weights stay (C166_network_refuted)."
 },
 "C167": {
  "note": "For every arithmetic. K-NN and nearest mean with a distance that does not look at classes, as both distances of the library do not."
 },
 "C168": {
  "note": "Refuted for two training sets (a constant indexed column with 12 and 1 instances of two classes; two instances whose values are neighbouring doubles), for every library whose log is correctly rounded at the five numbers that occur. Proved: training returns when the continuous values are finite and not neighbouring doubles and no group has an index whose useless split looks better, in particular without indexed attributes. The arithmetic has an unbounded exponent. For the range of double see C209."
 },
 "C169": {
  "note": "The random split and the preservation of the data are proved; the stratified sizes only away from integers (C169_stratified_partial), with two counterexamples to the exact sizes in C169_refuted: half of 14 out of 25 instances gives 8, and 7 % of 100 gives 8."
 },
 "C170": {
  "note": "Up to 2^53 calls. Undefined precision (no prediction of a class) is a NaN and excluded by hypothesis, as in the code."
 },
 "C171": {
  "note": "Refuted for three values 0.1 and for ten equal differences 0.1; proved in the other direction, and in both for values whose multiples are exact, and for the 5x2 tests. The arithmetic has an unbounded exponent. For the range of double see C209."
 },
 "C172": {
  "note": "The arithmetic has an unbounded exponent. For the range of double see C209."
 },
 "C173": {
  "note": "All classifiers, as complete runs of a new object. The empty string must keep its name, because some classifiers answer it when they have nothing to answer."
 },
 "C175": {
  "note": "Holds if all activations are at most 709 and one is at least -745 (C175_softmax_partial, with an error bound for the sum); an activation of 710 or more gets probability NaN (C175_overflow_refuted), and if all are -746 or less all probabilities are NaN (C175_underflow_refuted): normalizeOutput does not subtract the largest activation before exponentiating."
 },
 "C176": {
  "note": "Holds if inputs, initial weights and changes are so small that no activation can exceed 700 (C176_training_partial). An activation of 710 or more turns the weights of its class into NaN (C176_overflow_refuted), one NaN turns all weights into NaN at the next instance (C176_nan_spreads), and the network then answers its first class for everything (C176_nan_answers); a whole training on four incomes in the millions shows it (C176_refuted)."
 },
 "C177": {
  "note": "Overflow is not modelled: the exponent of the arithmetic is unbounded. An example run shows that the balance is not exact."
 },
 "C178": {
  "note": "The reader for guessed types takes the rest of a cut line for an instance: a class spam becomes sp."
 },
 "C179": {
  "note": "Support vector machines: the missing coefficients are replaced by the last one read. Sparse vectors cut after a line: undefined behaviour (an uninitialised variable), never another vector."
 },
 "C180": {
  "note": "Trees: grown in double precision (any tree for which growing returned, see C168), possibly pruned; stumps are not included."
 },
 "C181": {
  "note": "Nearest neighbours: distances are ordered numbers (no NaN), at least one neighbour is asked for."
 },
 "C182": {
  "note": "The nearest mean is for continuous data, trees for indices below the declared number of values."
 },
 "C183": {
  "note": "Refuted: for every forest with a subset smaller than the number of attributes some attribute has no influence at all. C183_fixed_subset says which attributes the forest looks at."
 },
 "C184": {
  "note": "The accessors and casts of all parameter classes are modelled; numbers of hidden nodes are not negative."
 },
 "C185": {
  "note": "Refuted: the theorem lists the arguments that are never read, for all values and data."
 },
 "C186": {
  "note": "Refuted: training a new perceptron on two instances with one and two numbers is undefined for one order and succeeds for the other. The partial theorems say what is true: the passes skip such instances, and whenever training succeeds without looking at stale outputs the object with its history gives the same network."
 },
 "C187": {
  "note": "The random numbers of a node that is later trained are not followed through the training."
 },
 "C188": {
  "note": "Exact arithmetic. A shrinking step is taken from any reachable state, not only from those in which the counter has run down."
 },
 "C189": {
  "note": "Refuted for naive Bayes, on nominal data (exact arithmetic) and on numbers (rationals with NaN). The partial theorems cover nearest neighbours, nearest means (distances a double can hold) and trees with and without pruning, stumps and bagging; random forests (the attributes drawn are other ones), discriminants (their covariance becomes singular) and networks are not covered."
 },
 "C190": {
  "note": "Refuted for LDA, QDA and naive Bayes on numbers, for every training list with a class of one instance, in double precision; the library's matrix inversion is assumed to give NaNs for a matrix of NaNs. The partial theorems cover the nearest mean and the nearest neighbour in any ordered arithmetic, plain and composite instances, the dummy classifier, and naive Bayes on discrete attributes over the reals; that the new class is answered where its mean or its instance is nearest is C53 and C50. Trees, networks and support vector machines are not covered."
 },
 "C191": {
  "note": "Refuted for multi-layer perceptron, auto-encoder and deep network for every engine; that the library's Matrix constructor takes the numbers of its engine row by row is a hypothesis. The start is observed after training for zero epochs; for the deep network with tanh after any number. The partial theorem is the one-layer perceptron."
 },
 "C192": {
  "note": "Proved for all classifiers but two, in every state and for any numbers; the two are refuted for every state: whenever the plain answer is not possible, it is given. The ensemble needs one tree (an empty one is left out here)."
 },
 "C193": {
  "note": "Ties are named in the statements: a class that takes the place of c has the same score, count or probability. Nearest neighbours, ensembles and LDA without a score are refuted with examples. For trees the numbers are real and the empty string is not among the possible classes."
 },
 "C194": {
  "note": "Proved for four of the five tests; the 5x2 paired t test is refuted, and shown independent of the order as long as the first fold stays first."
 },
 "C196": {
  "note": "That the classifier answers is a hypothesis in the form that the first test returned a result."
 },
 "C197": {
  "note": "Refuted for every classifier. For trees, forests and the parametric classifiers the instances must have the attribute types of one data definition; naive Bayes starts from a new model and ensembles from an empty one. The solver of the support vector machine, matrix inverse and determinant are arbitrary functions."
 },
 "C198": {
  "note": "Refuted for nearest mean, naive Bayes, LDA, QDA, support vector machines and soft decision trees (the functions of the base classes are inherited); proved for all others."
 },
 "C199": {
  "note": "Refuted: SoftDecisionTree inherits serialize and loadModel from DecisionTree, which know nothing of its members."
 },
 "C200": {
  "note": "Refuted: a NaN and two different numbers in a column break the contract, and NaN can come from a file. The exact condition is proved. The model itself sorts by insertion and is silent about what happens outside the contract."
 },
 "C202": {
  "note": "Refuted for the Euclidean distance, nearest mean, naive Bayes and soft decision trees; proved for the others. Random forests are not covered: the numbers drawn mean other attributes."
 },
 "C204": {
  "note": "Refuted: a value can get another column or the code of another value (`C204_refuted`), and Normalize uses the mean of the data it is given (`C204_normalize_refuted`). Proved for data sets with the same values."
 },
 "C205": {
  "note": "Everything but the last sentence of the statement is proved; that the result is the best tree to be had by cutting is refuted (`C205_best_refuted`)."
 },
 "C206": {
  "note": "Proved for unpruned trees, stumps and refused LDA/QDA lists, and LDA's weights (`C206_trees_partial`, `C206_refused_partial`, `C206_lda_partial`); forests and filters keep exactly the steps done before the exception (`C206_forest_progress`, `C206_filter_progress`). Refuted for naive Bayes, nearest mean, LDA, pruned trees, forests and filters. Not covered: QDA training that throws in the loop over the classes, neural networks, an instance half converted when the exception comes."
 },
 "C207": {
  "note": "Exact arithmetic. The perceptron part for instances with possible classes assumes outputs above -DBL_MAX at the two instances; the support vector part for objects trained once."
 },
 "C208": {
  "note": "Exact arithmetic; the library's inverse and determinant are parameters that satisfy the stated laws; some candidate scores above -DBL_MAX in both classifiers."
 },
 "C209": {
  "note": "Refuted at both ends of the range, for all values beyond the stated bounds (`C209_tree_refuted`, `C209_mean_refuted`, `C209_deviation_refuted`, `C209_distance_refuted`, `C209_far_refuted`); the partial theorems give ranges in which it holds. Arithmetic: binary64 with its range (`Model/DblB64.lean`), one zero, one NaN; `pow(x, 2)` correctly rounded, `log` correctly rounded at 1/2, 1 and 2."
 },
 "C210": {
  "note": "Refuted for random classifiers (`C210_history_refuted` for every generator, `C210_refuted` for the generator of the C standard); proved for soft decision trees. `rand()` and `random()` are taken to be one generator, as in glibc; sequences in which a call fails end there."
 },
 "C211": {
  "note": "Refuted for support vector machines and unstratified splits; the rest is proved. Which other functions work on copies of the list is part of the model (`ListUse.leaves`), read off the signatures cited there."
 },
 "C212": {
  "note": "Refuted for a training that ends with the initial weights (`C212_refuted`, a perceptron); proved otherwise for perceptron, multi-layer perceptron, deep network and auto-encoder. Instances must have the same number of inputs (see C186)."
 },
 "C213": {
  "note": "Once per epoch: proved (`C213_once`); drawn anew: refuted for every seed (`C213_refuted`). That `std::shuffle` with an engine of the same seed and the same length applies the same permutation is part of the model."
 },
 "C214": {
  "note": "Proved for the classifiers named, for every arithmetic (so for doubles too); refuted for naive Bayes with mixed columns (`C214_naive_bayes_refuted`). Nearest neighbours need distances that are not NaN, since the sort has no meaning otherwise. The matrix inverse is only assumed to keep the size. Trees, ensembles, networks, soft trees and support vector machines: C58, C65, C136, C119, C121, C129."
 },
 "C215": {
  "note": "Proved for trees (`C215_box`, `C215_box_answers`), trained trees (`C215_ends`) and stumps (`C215_stump`). The stronger claim that the instances with a given answer have no gaps is refuted for whole trees (`C215_tree_has_gaps`)."
 },
 "C216": {
  "note": "Proved for every arithmetic with IEEE-754 comparisons (stumps: real numbers), for all training runs that succeed. The values of a column seen in training may be infinite but not NaN."
 },
 "C217": {
  "note": "Proved for one neighbour (`C217_euclidean`, `C217_mahalanobis`); refuted for three (`C217_refuted`), where it is not to be expected. Exact arithmetic; ties are resolved by the order of training, as the sort of the model is stable."
 },
 "C218": {
  "note": "Proved for every arithmetic with IEEE-754 comparisons and every distance that succeeds."
 },
 "C219": {
  "note": "Proved for the sign test and for uniform changes in the paired t test and, repetition by repetition, in the two 5x2 t tests, in exact arithmetic; refuted for the paired t test in general (`C219_refuted`), which is a known property of that statistic and not a defect of the code."
 },
 "C220": {
  "note": "Proved in exact arithmetic for trees, pruned trees, stumps and bagging; refuted for k-NN and naive Bayes, which add up columns by design. Random forests draw columns, so an additional column changes what is drawn."
 },
 "C221": {
  "note": "Proved in exact arithmetic for LDA, QDA, k-NN (Euclidean and Mahalanobis) and nearest means, with a matrix library that inverts non-singular matrices; refuted for trees, as the method implies. Covariance matrices must not be singular, and some class must score above -DBL_MAX in both descriptions."
 },
 "C222": {
  "note": "Proved in exact arithmetic; the eigenvectors and the inverse are those of a matrix library that computes them correctly, and the conditions of C154/C221 (covariance not singular, some score above -DBL_MAX) apply to discriminant analysis. Refuted for k-NN after normalising, as the method implies."
 },
 "C223": {
  "note": "Proved in exact arithmetic by a simulation between the two runs of the solver, step by step, shrinking included. C223_one_unit_matters marks the limit that is part of the statement."
 },
 "C224": {
  "note": "Proved in exact arithmetic. C224_between_matters marks the limit that is part of the statement."
 },
 "C225": {
  "note": "Proved in exact arithmetic for the three classifying networks (the deep network created new); C225_zero_column is an instance: a column of zeros."
 },
 "C226": {
  "note": "Proved in exact arithmetic (in floating-point arithmetic the order of a sum matters)."
 },
 "C227": {
  "note": "Violated: the numbers of a data set are written without separators (C227_text_refuted), and the distance of a neighbour is appended as one character, which drops its fraction and is undefined from 128 on (C227_distance_refuted). True when all numbers have one digit (C227_text_partial) and for whole distances below 128 (C227_whole_distances_partial); C227_distance_partial and C227_negative_distance_partial say what the text is for every distance."
 },
 "C228": {
  "note": "Nearest neighbours in any arithmetic (C228_knn); increasing functions of the distance and turned points over the reals. The nearest-mean part needs no bound on the distances because the compared numbers are equal."
 },
 "C229": {
  "note": "Renaming and exchange over the reals and, for up to 2^53 classifications, bit for bit in double precision, although the rows are added in another order."
 }
}