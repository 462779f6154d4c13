#!/usr/bin/env python3
"""Source of /verif/properties.jsonl.  Run: python3 tools/properties_src.py > properties.jsonl"""
import json
P = []
def p(title, statement, quantifier, why, anchors):
    P.append(dict(id="C%02d" % (len(P) + 1), title=title, statement=statement,
                  quantifier=quantifier, why_tests_cant=why, anchors=anchors))

# ---------------------------------------------------------------- attributes / instances
p("One-hot encoding of indexed attributes",
  "continuousAttributes() of a discrete-indexed attribute with index i and maximum index m is a vector of length m whose j-th entry is 1 when j = i and 0 otherwise; it therefore contains exactly one 1 when 0 <= i < m and is all zero when i is out of range (for example -1, the 'unknown value' index).",
  "every index and every non-negative maximum index",
  "the vector length is unbounded and the out-of-range behaviour has infinitely many cases",
  ["src/Attribute/DiscreteIndexedAttribute.cpp: continuousAttributes, continuousAttributeSize"])
p("Continuous view of an instance has the advertised length and order",
  "For any instance, continuousAttributeSize() equals the length of continuousAttributes() and of toVector(), both vectors are equal, and they are the concatenation, in attribute order, of the attributes' own encodings (continuous value -> itself, indexed -> one-hot, plain discrete and binary -> nothing).",
  "every instance with any mix of attribute kinds whose indexed attributes have non-negative maximum index",
  "arbitrary number and interleaving of attribute kinds",
  ["src/Instance/Instance.cpp: continuousAttributeSize, continuousAttributes, toVector", "src/Attribute/*.cpp"])
p("Removing and adding attributes edits exactly the requested position",
  "addAttribute appends at the end; removeAttribute(i) for 0 <= i < attributeSize() deletes position i and keeps the order of the others; for any other i the call is undefined behaviour.",
  "every instance, every index, every sequence of edits",
  "needs all indices of all attribute lists",
  ["src/Instance/Instance.cpp: addAttribute, removeAttribute, removeAllAttributes"])
p("Feature projection of an instance",
  "getSubSetOfFeatures(S) on an instance succeeds exactly when every index in S is a valid attribute position and then yields the attributes at those positions in the order S lists them, with the same class label; otherwise it throws out_of_range.",
  "every instance and every feature subset (any order, duplicates allowed)",
  "quantifies over all index lists",
  ["src/Instance/Instance.cpp: getSubSetOfFeatures", "src/FeatureSelection/FeatureSubSet.cpp"])
p("Composite instances keep their possible labels under feature projection",
  "Projecting a composite instance on a feature subset keeps it composite with the same possible class labels.",
  "every composite instance and every valid feature subset",
  "must hold for all label lists and subsets",
  ["src/Instance/Instance.cpp: getSubSetOfFeatures", "src/Instance/CompositeInstance.cpp"])
p("Actual class of a composite instance is among its possible classes",
  "For a composite instance built from a label list, getClassLabel() is a member of getPossibleClassLabels().",
  "every non-empty label list",
  "ranges over all label lists",
  ["src/Instance/CompositeInstance.cpp: CompositeInstance(const vector<string>&)"])
# ---------------------------------------------------------------- instance list
p("Distinct class labels",
  "getDistinctClassLabels() lists each class label occurring in the list exactly once, in order of first occurrence, and lists nothing else.",
  "every instance list",
  "arbitrary list length and label multiplicities",
  ["src/InstanceList/InstanceList.cpp: getDistinctClassLabels"])
p("Union of possible class labels",
  "getUnionOfPossibleClassLabels() lists each label that is possible for some instance exactly once, in first-occurrence order; for lists without composite instances it equals getDistinctClassLabels().",
  "every instance list with any mixture of plain and composite instances",
  "arbitrary lists and label sets",
  ["src/InstanceList/InstanceList.cpp: getUnionOfPossibleClassLabels"])
p("Attribute value list",
  "getAttributeValueList(i) lists each value occurring at discrete position i exactly once, in first-occurrence order.",
  "every instance list whose attribute i is discrete-valued throughout",
  "arbitrary list length and values",
  ["src/InstanceList/InstanceList.cpp: getAttributeValueList"])
p("Class distribution counts",
  "classDistribution() assigns to every label exactly the number of instances carrying it, its sum is the list size, and its number of entries is the number of distinct labels.",
  "every instance list",
  "arbitrary length and label multiplicities",
  ["src/InstanceList/InstanceList.cpp: classDistribution", "src/DataSet/DataSet.cpp: classCount"])
p("Attribute/class contingency table",
  "attributeClassDistribution(i) returns one distribution per distinct value of attribute i, in first-occurrence order, and the v-th one counts for each label exactly the instances having that value and label; summing the tables over all values gives the class distribution.",
  "every instance list with a discrete attribute i",
  "arbitrary data",
  ["src/InstanceList/InstanceList.cpp: attributeClassDistribution"])
p("Indexed attribute/class distribution",
  "discreteIndexedAttributeClassDistribution(i, v) counts for each label exactly the instances whose indexed attribute i has index v.",
  "every instance list with an indexed attribute i, every v",
  "arbitrary data",
  ["src/InstanceList/InstanceList.cpp: discreteIndexedAttributeClassDistribution"])
p("Sorting by a continuous attribute is a stable sort",
  "sort(i) permutes the list so that the values of attribute i are non-decreasing and instances with equal value keep their relative order.",
  "every instance list whose attribute i is continuous and not NaN throughout",
  "all permutations and all tie patterns",
  ["src/InstanceList/InstanceList.cpp: sort(int), InstanceComparator"])
p("Sorting by class groups classes contiguously",
  "sort() permutes the list so that labels are lexicographically non-decreasing, equal labels keep their relative order, and hence the instances of each class form one contiguous block, the blocks appearing in label order with the sizes given by classDistribution().",
  "every instance list",
  "all permutations and all tie patterns",
  ["src/InstanceList/InstanceList.cpp: sort(), InstanceClassComparator", "src/Model/Svm/SvmModel.cpp: groupClasses"])
p("Shuffling loses and invents nothing",
  "shuffle(seed) leaves the list a permutation of itself, so class distribution, size and the multiset of instances are unchanged whatever the random engine produces.",
  "every instance list and every behaviour of the random engine",
  "all random schedules",
  ["src/InstanceList/InstanceList.cpp: shuffle"])
p("Attribute average is the mean / the mode",
  "average() gives for a continuous attribute the arithmetic mean of the column (so deviations from it sum to zero, and it lies between the smallest and largest value) and for a discrete attribute a value of maximal frequency, the lexicographically smallest such value.",
  "every non-empty instance list with homogeneous columns (exact arithmetic for the mean)",
  "arbitrary data",
  ["src/InstanceList/InstanceList.cpp: attributeAverage, average", "src/Model/Model.cpp: getMaximum"])
p("Sample standard deviation",
  "standardDeviation() of a continuous column is the square root of the sum of squared deviations divided by n-1; it is non-negative, zero exactly when all values are equal, and unaffected by adding a constant to the column.",
  "every list of at least two instances (exact arithmetic)",
  "arbitrary data",
  ["src/InstanceList/InstanceList.cpp: attributeStandardDeviation, standardDeviation"])
p("Covariance matrix is symmetric positive semidefinite",
  "covariance(average) is symmetric, v^T C v >= 0 for every vector v, and its diagonal holds the column variances when the average vector is the column mean.",
  "every list of at least two equal-width instances, every average vector, every v (exact arithmetic)",
  "quantifies over all vectors and all data",
  ["src/InstanceList/InstanceList.cpp: covariance"])
p("Average of an indexed column is a relative-frequency vector",
  "continuousAttributeAverage of an indexed column has length maxIndex, its j-th entry is the fraction of instances with index j, all entries lie in [0,1] and they sum to 1.",
  "every non-empty list whose indexed attribute has 0 <= index < maxIndex throughout (an index of -1 is undefined behaviour)",
  "arbitrary data",
  ["src/InstanceList/InstanceList.cpp: continuousAttributeAverage(int)"])
# ---------------------------------------------------------------- partition
p("Partition by class",
  "Partition(list) has one part per distinct class label in first-occurrence order; part k contains exactly the instances with the k-th label, in their original order, none is empty, and together they are a rearrangement of the list.",
  "every instance list",
  "arbitrary data",
  ["src/InstanceList/Partition.cpp: Partition(const InstanceList&)", "src/InstanceList/InstanceListOfSameClass.cpp"])
p("Partition by discrete attribute",
  "Partition(list, i) has one non-empty part per distinct value of attribute i in first-occurrence order, holding exactly the instances with that value in original order; together they are a rearrangement of the list.",
  "every list with a discrete attribute i",
  "arbitrary data",
  ["src/InstanceList/Partition.cpp: Partition(const InstanceList&, int)"])
p("Partition by indexed value",
  "Partition(list, i, v) has exactly two parts: the instances whose indexed attribute i equals v and the others, each in original order, together a rearrangement of the list.",
  "every list with an indexed attribute i, every v",
  "arbitrary data",
  ["src/InstanceList/Partition.cpp: Partition(const InstanceList&, int, int)"])
p("Partition by threshold",
  "Partition(list, i, t) has exactly two parts: the instances with value <= t and the rest (including NaN values), each in original order; together they are a rearrangement of the list.",
  "every list with a continuous attribute i, every threshold, including NaN on either side",
  "arbitrary data and thresholds",
  ["src/InstanceList/Partition.cpp: Partition(const InstanceList&, int, double)"])
p("Random split sizes",
  "Partition(list, r, seed, false) has exactly two parts which together are a rearrangement of the list; for 0 <= r <= 1 the first part has exactly ceil(r*n) instances; the list passed in is itself permuted.",
  "every list, ratio and random engine behaviour (exact arithmetic)",
  "all random schedules and sizes",
  ["src/InstanceList/Partition.cpp: Partition(InstanceList&, double, int, bool)"])
p("Stratified split sizes",
  "Partition(list, r, seed, true) has exactly two parts which together are a rearrangement of the list, and for 0 <= r <= 1 the first part contains exactly ceil(r*n_c) instances of every class c occurring n_c times; the caller's list is left unchanged.",
  "every list, ratio and random permutation (exact arithmetic)",
  "all random schedules, sizes and class mixes",
  ["src/InstanceList/Partition.cpp: Partition(InstanceList&, double, int, bool)"])
# ---------------------------------------------------------------- data set
p("Data set admits only instances of its definition",
  "After any sequence of addInstance / addInstanceList calls that do not throw, every instance of the data set has exactly the attribute types of getDataDefinition(), position by position and with the same length.",
  "every history of additions to an initially empty data set",
  "all histories of calls",
  ["src/DataSet/DataSet.cpp: addInstance, checkDefinition, setDefinition"])
p("The first instance fixes the definition for good",
  "Once a data set has a non-empty definition no sequence of additions changes it, each addition either appends the instance at the end or leaves the data set unchanged, and an instance is appended whenever its attribute types equal the definition.",
  "every history of additions",
  "all histories of calls",
  ["src/DataSet/DataSet.cpp: addInstance, checkDefinition"])
p("Attribute type counts",
  "discreteAttributeCount() + continuousAttributeCount() + (number of DISCRETE_INDEXED types) = attributeCount(), where the discrete count covers DISCRETE and BINARY.",
  "every data definition",
  "all type lists",
  ["src/DataSet/DataDefinition.cpp: attributeCount, discreteAttributeCount, continuousAttributeCount"])
p("Value index lookup inverts the value list",
  "featureValueIndex(i, v) is the first position of v in the value list of attribute i, is in [0, numberOfValues(i)) exactly when v is listed, and is -1 otherwise; so a file row read with an indexed type is one-hot encoded exactly when the value is known.",
  "every definition with value lists, every attribute and value",
  "all value lists",
  ["src/DataSet/DataDefinition.cpp: featureValueIndex, numberOfValues", "src/InstanceList/InstanceList.cpp: file constructor"])
p("Feature projection of a data set",
  "getSubSetOfFeatures(S) of a data set whose instances conform to the definition yields a data set with the projected definition and with exactly the projected instances, in order and none dropped.",
  "every conforming data set and every valid non-empty subset",
  "all data sets and subsets",
  ["src/DataSet/DataSet.cpp: getSubSetOfFeatures", "src/Experiment/Experiment.cpp: featureSelectedExperiment"])
p("Text rows written are read back",
  "Writing a data set with writeToFile and reading it back with the (definition, separator, file) constructor restores the same instances.",
  "every data set of plain instances with separator-free non-empty values and labels",
  "all data sets; ends of file and number formatting are boundary cases",
  ["src/DataSet/DataSet.cpp: writeToFile", "src/InstanceList/InstanceList.cpp: InstanceList(definition, separator, fileName)", "src/Instance/Instance.cpp: to_string"])
p("Rows with the wrong number of columns never enter the list",
  "Reading a file with a definition keeps exactly the lines that are terminated by a newline and have attributeCount()+1 columns, in file order; every instance produced has the definition's attribute types.",
  "every file content and definition",
  "all files",
  ["src/InstanceList/InstanceList.cpp: InstanceList(definition, separator, fileName)"])
# ---------------------------------------------------------------- performance
p("Confusion matrix accounting",
  "After any sequence of classify calls the cell (a, p) holds the number of calls with actual class a and predicted class p; the sum of all elements is the number of calls, the trace is the number of calls with a = p, and a column sum is the number of calls predicting that class.",
  "every sequence of classifications",
  "all histories",
  ["src/Performance/ConfusionMatrix.cpp: classify, sumOfElements, trace, columnSum"])
p("Merging confusion matrices is pooling the classifications",
  "addConfusionMatrix makes every cell the sum of the two cells; the merge of the matrices of two call histories equals, cell by cell, the matrix of the concatenated history, and so its accuracy is the pooled accuracy.",
  "every pair of call histories",
  "all histories",
  ["src/Performance/ConfusionMatrix.cpp: addConfusionMatrix"])
p("Accuracy is the fraction of correct classifications",
  "getAccuracy() of a non-empty history is (number of correct calls)/(number of calls), lies in [0,1], is 1 exactly when all are correct and 0 exactly when none is; on an empty history it is 0/0.",
  "every history of classifications (exact arithmetic)",
  "all histories",
  ["src/Performance/ConfusionMatrix.cpp: getAccuracy"])
p("Precision, recall and F-measure",
  "For a class that occurs as an actual class: recall is (correct of the class)/(occurrences of the class), precision is (correct of the class)/(predictions of the class), both in [0,1] where defined, and the F-measure is their harmonic mean 2PR/(P+R).",
  "every history of classifications and every listed class label that occurs as actual class (exact arithmetic)",
  "all histories",
  ["src/Performance/ConfusionMatrix.cpp: precision, recall, fMeasure"])
p("Per-class measures are defined for every class label",
  "precision(), recall(), fMeasure() and weightedFMeasure() give a defined value for every class label the matrix was created with.",
  "every class-label list and every history",
  "all histories; needs the reads of never-written memory to be tracked",
  ["src/Performance/ConfusionMatrix.cpp: precision, recall, fMeasure, weightedFMeasure", "src/Model/Model.cpp: test"])
p("Error rate and accuracy are complementary",
  "A ClassificationPerformance built from an accuracy, a DetailedClassificationPerformance, and the mean classification performance of any experiment all satisfy errorRate + accuracy = 1.",
  "every accuracy, confusion matrix and list of performances (exact arithmetic)",
  "all values",
  ["src/Performance/ClassificationPerformance.cpp", "src/Performance/DetailedClassificationPerformance.cpp", "src/Performance/ExperimentPerformance.cpp: meanClassificationPerformance"])
p("Experiment results are recorded in order",
  "After any sequence of add calls, numberOfExperiments() is the number of calls and getErrorRate(i) is the error rate of the i-th added performance (out_of_range outside); getAccuracy(i) returns the accuracy of a classification performance and throws for any other.",
  "every history of add calls",
  "all histories",
  ["src/Performance/ExperimentPerformance.cpp: add, numberOfExperiments, getErrorRate, getAccuracy"])
p("Mean and standard deviation of an experiment",
  "meanPerformance() has the arithmetic mean of the error rates and standardDeviationPerformance() the sample (n-1) standard deviation; both are unchanged by reordering the results.",
  "every non-empty (two or more for the deviation) list of results (exact arithmetic)",
  "all result lists and orders",
  ["src/Performance/ExperimentPerformance.cpp: meanPerformance, standardDeviationPerformance"])
p("Summaries refuse mixed experiments",
  "meanClassificationPerformance(), meanDetailedPerformance() and standardDeviationClassificationPerformance() return a null pointer, rather than misinterpreting memory, whenever the stored performances are not all of the required kind.",
  "every history of add calls with any mixture of performance kinds",
  "all histories and mixtures",
  ["src/Performance/ExperimentPerformance.cpp: add, meanClassificationPerformance, meanDetailedPerformance"])
p("Comparing experiments is a strict order",
  "isBetter compares mean accuracies: it is irreflexive, asymmetric and transitive, and neither of two experiments is better exactly when their mean accuracies are equal.",
  "every triple of non-empty classification experiments",
  "all experiments",
  ["src/Performance/ExperimentPerformance.cpp: isBetter"])
# ---------------------------------------------------------------- generic model behaviour
p("Testing a classifier counts its correct predictions",
  "Model::test on a test set classifies every instance once; the resulting accuracy is the fraction of instances whose predicted label equals the actual label, and ValidatedModel::testClassifier gives the same accuracy.",
  "every classifier with a deterministic predict and every non-empty test set (exact arithmetic)",
  "all classifiers and test sets",
  ["src/Model/Model.cpp: test", "src/Model/ValidatedModel.cpp: testClassifier"])
p("Majority label",
  "getMaximum(labels) returns a label of maximal multiplicity, namely the lexicographically smallest such label, and the empty string for an empty list.",
  "every list of labels",
  "all multisets and tie patterns",
  ["src/Model/Model.cpp: getMaximum"])
p("Discrete features are rejected up front",
  "LDA, QDA, SVM, linear/multilayer perceptron, deep network and autoencoder training throw DiscreteFeaturesNotAllowed exactly when the first training instance has a plain discrete attribute; indexed and binary attributes pass.",
  "every non-empty training list",
  "all attribute mixes",
  ["src/Model/Model.cpp: discreteCheck", "src/Model/Parametric/LdaModel.cpp, QdaModel.cpp: train", "src/Model/Svm/SvmModel.cpp: train", "src/Model/NeuralNetwork/NeuralNetworkModel.cpp: initialize"])
p("Dummy classifier predicts the majority class",
  "DummyModel predicts the most frequent training label (smallest in lexicographic order on ties) for plain instances, and for composite instances the first possible label with maximal training frequency.",
  "every training list and test instance",
  "all training sets and tie patterns",
  ["src/Model/DummyModel.cpp: train, predict"])
p("Dummy and random class probabilities",
  "predictProbability of the dummy classifier gives every training label its relative frequency; that of the random classifier gives each of its n labels 1/n; both are non-negative and sum to 1.",
  "every non-empty training list (exact arithmetic)",
  "all training sets",
  ["src/Model/DummyModel.cpp: predictProbability", "src/Model/RandomModel.cpp: predictProbability"])
p("Random classifier stays within the allowed labels",
  "RandomModel predicts one of its class labels (plain instance) or one of the instance's possible labels (composite), for every value the generator returns.",
  "every non-empty label list and every random number",
  "all generator behaviours",
  ["src/Model/RandomModel.cpp: predict, train"])
p("Nearest neighbours are nearest",
  "KnnModel::nearestNeighbors returns min(k, m) training instances out of the m eligible ones (all for a plain query, those with a possible label for a composite one), no eligible instance left out is nearer than a returned one, and ties are resolved by training order.",
  "every training list, metric, k >= 0 and query with no NaN distance",
  "all data sets, metrics and tie patterns",
  ["src/Model/NonParametric/KnnModel.cpp: nearestNeighbors"])
p("k-NN prediction is a vote of the neighbours",
  "KnnModel::predict returns a label carried by the largest number of nearest neighbours, smallest on ties; for a composite query the result is always one of its possible labels.",
  "every training list, metric, k >= 0 and query with non-empty possible labels",
  "all data sets",
  ["src/Model/NonParametric/KnnModel.cpp: predict"])
p("Squared Euclidean distance",
  "EuclidianDistance on instances of the same type is symmetric, non-negative and zero exactly when all continuous and plain discrete attributes agree.",
  "every pair of instances with equal attribute kinds (exact arithmetic)",
  "all instances",
  ["src/DistanceMetric/EuclidianDistance.cpp: distance"])
p("Gaussian-family prediction maximises the discriminant",
  "KMeans/LDA/QDA/naive Bayes predict a label of the prior distribution (or, for composite instances, a possible label occurring in training) whose metric is at least the metric of every other candidate; the first such candidate wins.",
  "every training result, metric function with values above -DBL_MAX, and instance",
  "all models and inputs",
  ["src/Model/Parametric/GaussianModel.cpp: predict"])
p("Nearest-mean classification",
  "KMeansModel, trained on a list, assigns a plain instance to a class whose mean instance has minimal distance among all class means.",
  "every training list and metric, every test instance",
  "all data",
  ["src/Model/Parametric/KMeansModel.cpp: train, calculateMetric", "src/Model/Parametric/GaussianModel.cpp: predict"])
p("Naive Bayes with discrete attributes uses Laplace-smoothed counts",
  "The discrete naive Bayes score of class c is log(n_c/n) plus, per attribute, log((count of the value among class c + 1)/(n_c + number of distinct values in class c + 1)); every factor is in (0,1), so an unseen value never yields an infinite score.",
  "every training list with discrete attributes, every instance (exact arithmetic)",
  "all data and unseen values",
  ["src/Model/Parametric/NaiveBayesModel.cpp: trainDiscreteVersion, logLikelihoodDiscrete"])
p("Retraining replaces the earlier model",
  "Calling train on an already trained classifier gives exactly the classifier that a fresh object would have learned from the second training set.",
  "every classifier, every history of training calls",
  "all histories; K-fold runs rely on it because they reuse one model object",
  ["src/Model/Parametric/LdaModel.cpp, QdaModel.cpp, NaiveBayesModel.cpp: train", "src/Model/Ensemble/*.cpp: train", "src/Model/Svm/SvmModel.cpp: train", "src/Model/NeuralNetwork/DeepNetworkModel.cpp: allocateWeights", "src/Model/DummyModel.cpp, NonParametric/KnnModel.cpp, Parametric/KMeansModel.cpp, DecisionTree/*.cpp: train"])
# ---------------------------------------------------------------- decision trees
p("Decision tree growth terminates",
  "Growing a decision tree from a non-empty list always terminates without error: every child of a split node receives a non-empty, strictly smaller part of the data.",
  "every non-empty homogeneous training list (exact arithmetic, entropies of the class counts)",
  "all data sets; recursion depth unbounded",
  ["src/Model/DecisionTree/DecisionNode.cpp: DecisionNode(InstanceList, ...)"])
p("Training data is routed consistently with the split",
  "For every split made while growing a tree, an instance of the node's data satisfies the condition of the child whose data contains it and, for a plain two-way or discrete split, the first child whose condition it satisfies is that child; so every training instance reaches the leaf it helped to build.",
  "every training list, every node of the grown tree",
  "all trees and instances",
  ["src/Model/DecisionTree/DecisionNode.cpp: createChildrenFor*, predict", "src/Model/DecisionTree/DecisionCondition.cpp: satisfy", "src/InstanceList/Partition.cpp"])
p("Tree predictions are training labels",
  "A grown tree predicts, for any plain instance of the right type, a class label that occurs in the training list.",
  "every non-empty training list and every instance",
  "all trees and inputs",
  ["src/Model/DecisionTree/DecisionNode.cpp: predict"])
p("Growing a tree never hurts training accuracy",
  "The number of training instances a grown tree classifies correctly is at least the number the majority label alone classifies correctly.",
  "every non-empty training list",
  "all data sets, unbounded recursion",
  ["src/Model/DecisionTree/DecisionNode.cpp", "src/Model/DecisionTree/DecisionTree.cpp: train"])
p("A decision stump splits at most once",
  "The tree trained by DecisionStump is either a leaf or a root all of whose children are leaves.",
  "every training list",
  "all data sets",
  ["src/Model/DecisionTree/DecisionStump.cpp: train", "src/Model/DecisionTree/DecisionNode.cpp"])
p("Pruning never lowers accuracy on the pruning set",
  "After prune(pruneSet) the accuracy on pruneSet is at least what it was before, and each single pruning decision is kept only if it does not lower it.",
  "every tree and every non-empty pruning set (exact comparison of counts)",
  "all trees, unbounded depth",
  ["src/Model/DecisionTree/DecisionTree.cpp: prune, pruneNode"])
p("Pruning only cuts",
  "prune never changes a node's condition, label, distribution or children, and never turns a leaf into an inner node; the pruned tree is the original with some inner nodes marked as leaves.",
  "every tree and pruning set",
  "all trees",
  ["src/Model/DecisionTree/DecisionTree.cpp: pruneNode"])
p("Composite instances get one of their possible labels from a tree",
  "DecisionTree::predict on a composite instance with a non-empty list of non-empty possible labels returns one of these labels.",
  "every tree and composite instance",
  "all trees and label lists",
  ["src/Model/DecisionTree/DecisionNode.cpp: predict", "src/Model/DecisionTree/DecisionTree.cpp: predict"])
p("Ensemble prediction is a majority vote",
  "A bagging or random-forest model predicts the label predicted by the largest number of its trees (smallest on ties), and predictProbability gives each label its share of the votes, summing to 1.",
  "every non-empty forest and instance",
  "all forests",
  ["src/Model/Ensemble/TreeEnsembleModel.cpp: predict, predictProbability"])
p("Training an ensemble builds the requested number of trees",
  "After train with ensemble size B the model consists of B trees, the i-th grown on the i-th bootstrap sample of the training list, each sample consisting of training instances only.",
  "every training list, ensemble size and bootstrap outcome, fresh model",
  "all sizes and random schedules",
  ["src/Model/Ensemble/BaggingModel.cpp, RandomForestModel.cpp: train"])
# ---------------------------------------------------------------- svm
p("Sparse dot product equals dense dot product",
  "The NodeList of a vector stores exactly its non-zero entries in increasing index order, and the dot product of two NodeLists equals the dot product of the dense vectors.",
  "every pair of vectors of any (also different) lengths (exact arithmetic)",
  "all vectors and zero patterns",
  ["src/Model/Svm/NodeList.cpp: NodeList(values), dot"])
p("Kernel functions are symmetric and consistent",
  "Every kernel is symmetric, the kernel value used while training (index based, with cached squares) equals the one used while predicting (NodeList based), also after any sequence of index swaps, and the RBF kernel is exp(-gamma*||x-y||^2), in (0,1] for gamma >= 0.",
  "every kernel type, parameters, data and swap history (exact arithmetic)",
  "all data and histories",
  ["src/Model/Svm/Kernel.cpp: function (both), rbf, swapIndex"])
p("SMO keeps the dual feasible",
  "In every state the solver reaches, each multiplier lies in [0, C] and the sum of y_i*alpha_i is 0.",
  "every problem with labels +1/-1, C > 0, any kernel, every number of optimisation and shrinking steps, provided no step divides by zero (exact arithmetic)",
  "unboundedly many solver steps",
  ["src/Model/Svm/Solver.cpp: solve, doShrinking, swapIndex"])
p("SMO optimisation stops only at an approximately optimal pair",
  "selectWorkingSet returns true exactly when no pair of multipliers that can still move violates optimality by 0.001 or more, and when it returns false both chosen indices have been set and can move in their direction.",
  "every solver state",
  "all states",
  ["src/Model/Svm/Solver.cpp: selectWorkingSet"])
p("Solver bookkeeping survives index swaps",
  "After any sequence of swapIndex calls the arrays y, alpha, b, G, the status array and the active-set permutation describe the same problem with renumbered rows.",
  "every state and swap history",
  "all histories",
  ["src/Model/Svm/Solver.cpp: swapIndex", "src/Model/Svm/QMatrix.cpp: swapIndex"])
p("Solution is reported in the original order",
  "The multiplier reported for training instance k is the one the solver computed for that instance, also when shrinking has permuted the problem.",
  "every final solver state",
  "all permutations reachable by shrinking",
  ["src/Model/Svm/Solver.cpp: solve (final loop)"])
p("One-vs-one voting",
  "SvmModel::predict casts exactly n(n-1)/2 votes, one per pair of classes, and returns the first class (in label order) with the maximal number of votes.",
  "every number of classes and every decision-value vector",
  "all class counts",
  ["src/Model/Svm/SvmModel.cpp: predict"])
p("SVM class blocks match the sorted data",
  "After sort(), the block of training instances [start_i, start_i + count_i) computed for class i contains exactly the instances of the i-th class label, for every class.",
  "every training list",
  "all class mixes",
  ["src/Model/Svm/SvmModel.cpp: train, groupClasses", "src/InstanceList/InstanceList.cpp: sort()"])
# ---------------------------------------------------------------- neural networks
p("Softmax output is a probability vector",
  "normalizeOutput yields positive values summing to 1, preserving the order of the inputs and unchanged when a constant is added to all inputs.",
  "every non-empty real vector (exact arithmetic)",
  "all vectors",
  ["src/Model/NeuralNetwork/NeuralNetworkModel.cpp: normalizeOutput"])
p("Output error sums to zero",
  "The error vector r - y used by the perceptron learners has components summing to 0, its component is positive only for the actual class, and each component lies in (-1, 1).",
  "every training instance with a known class, weights and inputs (exact arithmetic)",
  "all weights and inputs",
  ["src/Model/NeuralNetwork/NeuralNetworkModel.cpp: calculateRMinusY"])
p("Network prediction respects the possible labels",
  "For a composite instance with at least one possible label, the predicted label is a possible label; among the possible labels known to the network it has the largest output.",
  "every output vector with values above -DBL_MAX and every label list",
  "all outputs and label lists",
  ["src/Model/NeuralNetwork/NeuralNetworkModel.cpp: predictWithCompositeInstance, predict"])
p("Training keeps the best epoch",
  "The weights kept by the perceptron/network training loop are those of an epoch whose validation accuracy is maximal among all epochs (the earliest such), or the initial weights when no epoch has accuracy above 0.",
  "every number of epochs and every sequence of weight updates",
  "all training histories",
  ["src/Model/NeuralNetwork/LinearPerceptronModel.cpp, MultiLayerPerceptronModel.cpp, DeepNetworkModel.cpp: train"])
p("Autoencoder keeps the best epoch",
  "The weights kept by the autoencoder training loop are those of the earliest epoch with minimal validation error, so the reported error never exceeds that of any epoch.",
  "every number of epochs and update sequence",
  "all training histories",
  ["src/Model/NeuralNetwork/AutoEncoderModel.cpp: train"])
p("Soft decision tree output is a convex combination",
  "The output of a soft decision tree node is a convex combination of its leaves' output vectors: leaf weights are positive and sum to 1, so every component lies between the smallest and largest leaf component.",
  "every tree of any depth and every instance (exact arithmetic)",
  "unbounded depth",
  ["src/Model/DecisionTree/SoftDecisionNode.cpp: calculateOutput"])
# ---------------------------------------------------------------- feature selection
p("Feature selection candidates",
  "The forward operator proposes exactly the current subset extended by one missing feature of [0,n), the backward operator exactly the current subset with one position removed, the floating operator both; duplicate-free subsets of [0,n) stay duplicate-free subsets of [0,n).",
  "every subset and number of features",
  "all subsets",
  ["src/FeatureSelection/SubSetSelection.cpp: forward, backward", "src/FeatureSelection/*Selection.cpp: operatorToModify"])
p("Feature selection terminates",
  "execute terminates for forward, backward and floating selection, whatever the experiment results are.",
  "every number of features and every performance function, even a non-deterministic one",
  "unbounded number of rounds",
  ["src/FeatureSelection/SubSetSelection.cpp: execute"])
p("Feature selection returns a local optimum it has evaluated",
  "The returned subset is the initial subset or an evaluated candidate, its performance is at least that of every subset evaluated, and no single-step candidate of it is better.",
  "every deterministic performance function and number of features",
  "all search histories",
  ["src/FeatureSelection/SubSetSelection.cpp: execute"])
p("No subset is evaluated twice",
  "During one run of execute no feature subset (as an ordered list) is evaluated twice and the empty subset is never evaluated.",
  "every performance function and number of features",
  "all search histories",
  ["src/FeatureSelection/SubSetSelection.cpp: execute"])
# ---------------------------------------------------------------- experiments
p("K-fold run",
  "KFoldRun yields exactly K results, the i-th obtained by training on fold i's training part and testing on its test part; the K test parts together are a rearrangement of the data set, so each instance is tested exactly once and never trained on in the same fold.",
  "every data set, K >= 1, model and random order (given the cross-validation library's fold contract)",
  "all sizes, models and random schedules",
  ["src/Experiment/KFoldRun.cpp: execute, runExperiment"])
p("Separate-test runs never train on test data",
  "In KFoldRunSeparateTest, StratifiedKFoldRunSeparateTest and their MxK versions, the held-out test set and the data used for training folds are complementary parts of the data set, and all results are measured on that one test set of ceil(n/4) instances (per class in the stratified versions).",
  "every data set, K, M, model and random order",
  "all sizes and random schedules",
  ["src/Experiment/KFoldRunSeparateTest.cpp, StratifiedKFoldRunSeparateTest.cpp, MxKFoldRunSeparateTest.cpp, StratifiedMxKFoldRunSeparateTest.cpp"])
p("MxK runs give M times K results over independent repetitions",
  "MxKFoldRun and StratifiedMxKFoldRun yield exactly M*K results and the M repetitions use different foldings.",
  "every data set, M, K and model",
  "all sizes; needs the seed handling to be tracked",
  ["src/Experiment/MxKFoldRun.cpp, StratifiedMxKFoldRun.cpp: execute"])
p("Bootstrap runs",
  "BootstrapRun yields exactly numberOfBootstraps results, the i-th trained on the sample drawn with seed i + parameter seed and tested on the whole data set.",
  "every data set, number of bootstraps and sampler",
  "all sizes and random schedules",
  ["src/Experiment/BootstrapRun.cpp: execute"])
# ---------------------------------------------------------------- statistical tests
p("Paired test statistics are antisymmetric",
  "Swapping the two experiments negates the statistic of the paired t, 5x2 t and combined 5x2 t tests and leaves the combined 5x2 F statistic unchanged; applicability is symmetric too.",
  "every pair of experiments (exact arithmetic)",
  "all experiment results",
  ["src/StatisticalTest/Pairedt.cpp, Paired5x2t.cpp, Combined5x2t.cpp, Combined5x2f.cpp: testStatistic"])
p("Tests reject inapplicable input",
  "Each paired test throws StatisticalTestNotApplicable when the numbers of experiments differ, the 5x2 tests when it is not 10, and all of them when the relevant variance (or number of signed differences) is 0; otherwise they return a result.",
  "every pair of experiments (exact arithmetic)",
  "all inputs",
  ["src/StatisticalTest/*.cpp: testStatistic, compare"])
p("Combined F and t statistics are related",
  "The combined 5x2 F statistic is non-negative, and it equals (sum of squared differences)/(2 * sum of the five variances).",
  "every pair of 10-result experiments with non-zero variance (exact arithmetic)",
  "all experiment results",
  ["src/StatisticalTest/Combined5x2f.cpp: testStatistic"])
p("Sign test p-value is a binomial tail",
  "The sign test returns sum_{i<=plus} C(total, i)/2^total where plus/minus count strict wins/losses and total = plus + minus; it lies in (0, 1].",
  "every pair of experiments with at least one strict difference",
  "all sizes; the int factorial overflows for total >= 13",
  ["src/StatisticalTest/Sign.cpp: compare, binomial, factorial"])
p("Test decisions",
  "oneTailed(alpha) rejects exactly when p < alpha; twoTailed(alpha) rejects exactly when p < alpha/2 or p > 1 - alpha/2 (p < alpha for two-tailed-only results); decreasing alpha never turns a non-rejection into a rejection.",
  "every p-value and alpha",
  "all real values",
  ["src/StatisticalTest/StatisticalTestResult.cpp"])
p("Comparison of two classifiers is antisymmetric",
  "PairedTest::compare(a, b, alpha) = -compare(b, a, alpha) whenever not both one-sided comparisons reject, and the combined 5x2 F test can always be used with this method.",
  "every pair of experiments, every alpha",
  "all inputs",
  ["src/StatisticalTest/PairedTest.cpp: compare"])
# ---------------------------------------------------------------- filters
p("Discrete-to-continuous filter",
  "DiscreteToContinuous replaces every discrete attribute of an instance by the one-hot vector of its value over the (sorted) values of that attribute in the data set, appended in attribute order after the remaining attributes, and keeps all non-discrete attributes in order; no discrete attribute is left.",
  "every data set and instance of it",
  "all attribute mixes and value sets",
  ["src/Filter/DiscreteToContinuous.cpp, LaryFilter.cpp"])
p("Lary-to-binary filter",
  "LaryToBinary replaces every discrete attribute by one binary attribute per value, true for exactly the instance's value, and keeps the others in order.",
  "every data set and instance of it",
  "all attribute mixes and value sets",
  ["src/Filter/LaryToBinary.cpp, LaryFilter.cpp"])
p("Discrete-to-indexed filter",
  "DiscreteToIndexed replaces every discrete attribute by one indexed attribute holding the position of its value among the sorted values of the data set and their number; the index is always in range for instances of the data set.",
  "every data set and instance of it",
  "all attribute mixes and value sets",
  ["src/Filter/DiscreteToIndexed.cpp, LaryFilter.cpp"])
p("Filters keep the data definition in step with the data",
  "After convert() the data definition's attribute types equal the attribute types of the converted instances.",
  "every data set and every attribute-replacing filter",
  "all attribute mixes",
  ["src/Filter/FeatureFilter.cpp: convert", "src/Filter/*.cpp: convertDataDefinition", "src/Filter/LaryFilter.cpp: removeDiscreteAttributes(int)"])
p("Normalisation",
  "After Normalize::convert every continuous column with positive standard deviation has mean 0 and sample standard deviation 1, discrete attributes are unchanged and the order of the values in a column is preserved.",
  "every data set of at least two instances without repeated instance objects (exact arithmetic)",
  "all data sets",
  ["src/Filter/Normalize.cpp"])
# ---------------------------------------------------------------- persistence
p("Saved sparse vectors and SVM models are restored",
  "Writing a NodeList, or a whole SVM model, and reading it back restores the same data.",
  "every NodeList/model whose numbers survive printing and whose labels contain no white space",
  "all models",
  ["src/Model/Svm/NodeList.cpp, Node.cpp, SvmModel.cpp: serialize, stream constructors"])
p("Saved random classifiers are restored",
  "Serialising a RandomModel and loading it restores its class labels.",
  "every label list without white space",
  "all models",
  ["src/Model/RandomModel.cpp: serialize, load"])
p("Saved decision trees are restored",
  "Serialising a decision tree and loading it restores a tree with the same predictions.",
  "every tree",
  "all trees, unbounded depth",
  ["src/Model/DecisionTree/DecisionNode.cpp, DecisionCondition.cpp: serialize, stream constructors"])
p("Saved LDA models are restored",
  "Serialising an LDA model and loading it with loadModel restores its weights.",
  "every model",
  "all models",
  ["src/Model/Parametric/LdaModel.cpp: serialize, load"])
p("Saved instance lists are restored",
  "Serialising an instance list (as part of a k-NN or k-means model) and loading it restores the instances.",
  "every non-empty list",
  "all lists",
  ["src/InstanceList/InstanceList.cpp: serialize, InstanceList(ifstream&)"])
# ---------------------------------------------------------------- discriminants (added later)
p("Linear discriminant analysis is Bayes' rule with a shared covariance",
  "A trained LDA model scores each class by its log relative frequency minus half the squared Mahalanobis distance from the instance to the class mean under the inverse of the pooled within-class covariance matrix, up to a term common to all classes, and predicts a class with the highest value.",
  "every training list of continuous instances with at least two instances per class, every instance (exact arithmetic; the matrix inverse is the library's)",
  "infinitely many training lists and instances",
  ["src/Model/Parametric/LdaModel.cpp: train, calculateMetric", "src/Model/Parametric/GaussianModel.cpp: predict"])
p("Quadratic discriminant analysis is Bayes' rule with one covariance per class",
  "A trained QDA model scores each class by its log relative frequency minus half the log determinant of the class covariance matrix minus half the squared Mahalanobis distance to the class mean under its inverse.",
  "every training list of continuous instances with at least two instances per class, every instance (exact arithmetic; inverse and determinant are the library's)",
  "infinitely many training lists and instances",
  ["src/Model/Parametric/QdaModel.cpp: train, calculateMetric"])
p("Continuous naive Bayes scores by the Gaussian posterior",
  "On continuous data a trained naive Bayes model orders the classes by the logarithm of relative frequency times the product of Gaussian densities with the class means and standard deviations.",
  "every training list of continuous instances with at least two instances per class, every instance (exact arithmetic)",
  "infinitely many training lists and instances",
  ["src/Model/Parametric/NaiveBayesModel.cpp: train, logLikelihoodContinuous"])
p("Each split of a grown tree minimises the remaining class entropy",
  "Every inner node of a grown tree splits on a test whose expected class entropy is smallest among all tests considered (every value of a discrete attribute, every threshold between two values of a continuous one, every value of an indexed one), the first of them in the order of the attributes and of the values if several are equally good, and a node is a leaf only if its labels agree or no test lowers the entropy. Every node carries the majority label and the class counts of the training instances that reach it.",
  "every non-empty homogeneous training list (exact arithmetic)",
  "infinitely many lists, all nodes of trees of any depth",
  ["src/Model/DecisionTree/DecisionNode.cpp: DecisionNode, entropyForDiscreteAttribute, createChildrenForContinuous"])
p("Single runs hold out one fold",
  "SingleRunWithK and StratifiedSingleRunWithK train exactly once and test exactly once, on complementary parts of the data set; the test part holds floor(n/K) instances (per class: floor or ceiling of n_c/K in the stratified version).",
  "every data set, K >= 1, model and random order (given the cross-validation library's fold contract)",
  "all data sets and random orders",
  ["src/Experiment/SingleRunWithK.cpp: execute", "src/Experiment/StratifiedSingleRunWithK.cpp: execute"])
p("Folds are balanced",
  "Every test fold of a K-fold run holds floor(n/K) or ceiling(n/K) instances, and every test fold of a stratified run holds floor(n_c/K) or ceiling(n_c/K) instances of each class c.",
  "every data set, K >= 1, fold and random order (given the cross-validation library's fold contract)",
  "all data sets and random orders",
  ["src/Experiment/KFoldRun.cpp: execute", "src/Experiment/StratifiedKFoldRun.cpp: execute"])
p("Data files without declared types",
  "DataSet(ifstream&) takes a column as continuous exactly when its cell in the first line is a number and as discrete otherwise; the data set then holds, in order, the meanings of exactly the lines with the right number of columns and numbers in the numeric columns, a label with semicolons giving a composite instance.",
  "every file whose numeric texts are in range",
  "all file contents",
  ["src/DataSet/DataSet.cpp: DataSet(ifstream&)"])
p("Writing and re-reading a data set without declared types",
  "A data set of discrete and continuous attributes with plain and composite instances written by writeToFile and read by DataSet(ifstream&) is restored, composite labels included, when values contain no separators, numbers print exactly and no name in the first row is a numeral.",
  "every such data set",
  "all data sets",
  ["src/DataSet/DataSet.cpp: writeToFile, DataSet(ifstream&)", "src/Instance/CompositeInstance.cpp: to_string"])
p("Means and deviations of one-hot coded columns",
  "continuousAttributeAverage and continuousAttributeStandardDeviation give for an indexed attribute the means and sample standard deviations of its 0/1 indicator columns, for a continuous one its mean and sample standard deviation, concatenated in attribute order.",
  "every list of at least two instances with indices in range (exact arithmetic)",
  "arbitrary data",
  ["src/InstanceList/InstanceList.cpp: continuousAttributeAverage, continuousAttributeStandardDeviation"])
p("Editing a data definition",
  "addAttribute appends a type, removeAttribute(i) removes exactly the i-th type and keeps the others in order, removeAllAttributes removes all.",
  "every definition and index",
  "all type lists",
  ["src/DataSet/DataDefinition.cpp: addAttribute, removeAttribute, removeAllAttributes"])
p("Principal components",
  "Pca(ds, k).convert() keeps every label and replaces the attributes of every instance by k numbers, the projections of its old numbers on the first k eigenvectors of the covariance matrix of the data; the new columns are uncorrelated and their sample variances are the eigenvalues.",
  "every data set of at least two numeric instances without repeated objects and every k up to the dimension (exact arithmetic, given the eigenvector contract of the math library)",
  "all data sets and dimensions",
  ["src/Filter/Pca.cpp: Pca(dataSet, numberOfDimensions), train, convertInstance", "src/Filter/FeatureFilter.cpp: convert"])
p("The perceptron climbs the log-likelihood",
  "Presenting a numeric training instance to the linear perceptron adds to every weight the learning rate times the derivative, with respect to that weight, of the logarithm of the (softmax) probability the model gives to the class of the instance.",
  "every weight matrix of the right size, instance with a known class and learning rate (exact arithmetic)",
  "all weights, inputs and dimensions",
  ["src/Model/NeuralNetwork/LinearPerceptronModel.cpp: train", "src/Model/NeuralNetwork/NeuralNetworkModel.cpp: calculateRMinusY"])
p("Backpropagation computes the gradient",
  "Presenting a numeric training instance to a multilayer perceptron or to a deep network of any number of layers adds to every weight of every layer the learning rate times the derivative, with respect to that weight, of the logarithm of the probability the network gives to the class of the instance.",
  "every depth, layer width, weights, activation function (rectifier nodes not exactly at their kink), instance and learning rate (exact arithmetic)",
  "all depths, weights and inputs",
  ["src/Model/NeuralNetwork/MultiLayerPerceptronModel.cpp: train", "src/Model/NeuralNetwork/DeepNetworkModel.cpp: train"])
p("The autoencoder descends the reconstruction error",
  "Presenting a numeric instance to the autoencoder subtracts from every weight the learning rate times the derivative, with respect to that weight, of half the squared distance between the instance and its reconstruction.",
  "every number of hidden nodes, weights, instance and learning rate (exact arithmetic)",
  "all weights and inputs",
  ["src/Model/NeuralNetwork/AutoEncoderModel.cpp: train"])
p("The networks compute the composition of their layers",
  "The output of a linear perceptron, a multilayer perceptron, a deep network of any depth and an autoencoder on an input vector is the composition of its layers (weighted sums with a bias input, activation function at the hidden nodes only); the error reported by testAutoEncoder is the mean squared distance between the instances and their reconstructions.",
  "every depth, layer width, weights and input of fitting sizes (exact arithmetic)",
  "all depths and weights",
  ["src/Model/NeuralNetwork/LinearPerceptronModel.cpp: calculateOutput", "src/Model/NeuralNetwork/MultiLayerPerceptronModel.cpp: calculateOutput", "src/Model/NeuralNetwork/DeepNetworkModel.cpp: calculateOutput", "src/Model/NeuralNetwork/AutoEncoderModel.cpp: predictInput, testAutoEncoder"])
p("Training a network succeeds and the network predicts",
  "Training a perceptron, a multilayer perceptron, a fresh deep network or an autoencoder on a list of numeric instances of one dimension returns normally, and the trained model answers for every numeric instance of that dimension: a class label of the training list for a plain instance, one of its possible labels for a composite one, as many numbers as the instance has for the autoencoder.",
  "every non-empty numeric training list (for the autoencoder: with two instances of some class), network size, number of epochs, random weights and random order (exact arithmetic)",
  "all data sets, network sizes and training histories",
  ["src/Model/NeuralNetwork/LinearPerceptronModel.cpp: train", "src/Model/NeuralNetwork/MultiLayerPerceptronModel.cpp: train", "src/Model/NeuralNetwork/DeepNetworkModel.cpp: train", "src/Model/NeuralNetwork/AutoEncoderModel.cpp: train", "src/Model/NeuralNetwork/NeuralNetworkModel.cpp: predict"])
p("Soft decision tree growth never hurts on the validation part",
  "While a soft decision tree grows, a split is kept only if the tree then makes fewer wrong predictions on the validation part; otherwise the tree predicts exactly what it predicted before. So growth ends, never raises the number of wrong validation predictions, and adds at most as many splits as there are validation instances.",
  "every tree, path to a leaf, data, random numbers and learning parameters, in any arithmetic",
  "all growth histories of unbounded depth",
  ["src/Model/DecisionTree/SoftDecisionNode.cpp: findBestSoftDecisionTreeSplit, createSoftDecisionTree, errorOfSoftDecisionTree"])
p("Training a soft decision tree succeeds",
  "Training a soft decision tree on a non-empty list of numeric instances of one dimension succeeds and the trained tree predicts, for every numeric instance of that dimension, a label of the training list.",
  "every training list, random numbers and learning parameters (exact arithmetic)",
  "all data sets and growth histories",
  ["src/Model/DecisionTree/SoftDecisionTree.cpp: train, predict", "src/Model/DecisionTree/SoftDecisionNode.cpp: calculateOutput, gradientDescentSoftDecisionTree"])
p("Soft decision trees follow the gradient of the likelihood",
  "During the growth of a soft decision tree, each presented instance changes the vectors of the two new leaves and the weights of their split by the learning rate times the gradient of the log-probability the tree gives to the class of the instance, plus alpha times the previous change.",
  "every tree of any depth, split, instance, learning rate, momentum and previous change (exact arithmetic)",
  "derivatives over all real weights",
  ["src/Model/DecisionTree/SoftDecisionNode.cpp: gradientDescentSoftDecisionTree"])
p("The SVM solver stops only at a nearly optimal point",
  "When the solver of a two-class problem stops, its multipliers satisfy the constraints and no admissible change of two of them improves the objective at a rate of 0.001 or more, for the whole problem, including the instances set aside by shrinking.",
  "every two-class problem with C > 0, kernel and number of rounds (exact arithmetic)",
  "all problems and iteration and shrinking histories",
  ["src/Model/Svm/Solver.cpp: solve, selectWorkingSet, reconstructGradient, doShrinking"])
p("The SVM threshold satisfies the margin conditions",
  "When the solver stops, the multipliers and the threshold it computes satisfy the margin conditions up to 0.001: an instance with multiplier below C has y f(x) > 0.999, one with a positive multiplier has y f(x) < 1.001, where f is the decision function of the training set.",
  "every two-class problem with C > 0, kernel and number of rounds (exact arithmetic)",
  "all problems and iteration and shrinking histories",
  ["src/Model/Svm/Solver.cpp: solve, calculateRho"])
p("The trained SVM computes its two-class decision functions",
  "Training an SVM on a non-empty list of numeric instances, when every two-class problem is solved, returns normally; for every query and every pair of classes the trained machine computes the decision value of the two-class solution, the kernel sum over all training instances of the two classes minus the threshold, although it stores only the support vectors and shares them between the pairs; it answers with the first of the classes with the most votes.",
  "every training list, number of classes, kernel, solutions of the two-class problems and query (exact arithmetic; a machine without support vectors before)",
  "all data sets, numbers of classes and patterns of support vectors",
  ["src/Model/Svm/SvmModel.cpp: train, solveSingle, predictValues, predict"])
p("The trained SVM classifies the training instances its solutions get right",
  "When every two-class problem is solved within min(number of its instances, 1000) rounds, the trained SVM has multipliers that satisfy the constraints and margin conditions up to 0.001, and every training instance whose multiplier is below C in all problems of its class is given its own class.",
  "every training list, number of classes, kernel and C > 0 (exact arithmetic)",
  "all data sets and solver histories",
  ["src/Model/Svm/SvmModel.cpp: train, predict", "src/Model/Svm/Solver.cpp: solve"])
p("The SVM solver makes progress and stops",
  "Every round of the two-class solver that does not end the loop strictly lowers the objective and keeps the constraints, and the solver stops after finitely many rounds whenever no vector occurs with two labels.",
  "every two-class problem with C > 0 whose instances differ in the kernel space or agree in vector and label (exact arithmetic)",
  "termination over all problems; no bound on the number of rounds is known in advance",
  ["src/Model/Svm/Solver.cpp: solve"])
p("The SVM solver ends near the minimum",
  "When the solver stops with a linear kernel, or a polynomial or RBF kernel with parameters that are not negative, its multipliers are feasible and no feasible multipliers have an objective smaller by more than C n / 1000, n being the number of instances.",
  "every two-class problem with C > 0 and such a kernel, every number of rounds (exact arithmetic)",
  "a global minimum over a continuum of points",
  ["src/Model/Svm/Solver.cpp: solve", "src/Model/Svm/Kernel.cpp: kernelFunction"])
p("Training a support vector machine returns",
  "Training an SVM with a linear, RBF (gamma > 0) or polynomial kernel (gamma > 0, constant >= 0, odd degree or constant > 0) on a non-empty list of numeric instances of one dimension, none of which have the same values and different classes, returns after finitely many solver rounds, and every prediction afterwards returns a class label of the training data.",
  "every such training list, number of classes, C > 0, query (exact arithmetic; a machine without support vectors before)",
  "termination over all data sets",
  ["src/Model/Svm/SvmModel.cpp: train, solveSingle, predict", "src/Model/Svm/Solver.cpp: solve"])
p("Saved dummy classifiers are restored",
  "Writing a DummyModel and reading it back gives a model with the same predictions and the same class probabilities.",
  "every training list whose labels are non-empty and contain no white space; the Math library reads back the distributions it wrote",
  "all models",
  ["src/Model/DummyModel.cpp: serialize, load"])
p("Saved naive Bayes models of numeric attributes are restored",
  "Writing a naive Bayes model trained on numeric attributes and loading it into a new object gives a model with the same predictions.",
  "every such model whose means and deviations survive printing and whose labels contain no white space",
  "all models and queries",
  ["src/Model/Parametric/NaiveBayesModel.cpp: serialize, load"])
p("Saved neural networks are restored",
  "Writing a perceptron, multilayer perceptron or deep network and loading it restores its class labels and its weights.",
  "every network",
  "all networks, all ways of loading",
  ["src/Model/NeuralNetwork/NeuralNetworkModel.cpp: serialize, load", "src/Model/NeuralNetwork/LinearPerceptronModel.cpp: load", "src/Model/NeuralNetwork/MultiLayerPerceptronModel.cpp: load", "src/Model/NeuralNetwork/DeepNetworkModel.cpp: load"])
p("Saved QDA and discrete naive Bayes models are restored",
  "Writing a QDA model, or a naive Bayes model of discrete attributes, and loading it restores its quadratic terms and its attribute distributions.",
  "every model",
  "all models, all ways of loading",
  ["src/Model/Parametric/QdaModel.cpp: load", "src/Model/Parametric/LdaModel.cpp: serialize", "src/Model/Parametric/NaiveBayesModel.cpp: serialize, load"])
p("Class probabilities of a decision tree",
  "For every instance of the training types predictProbability of a trained tree or stump, pruned or not, lists exactly the classes of the training instances that pass the same tests, each with its share among them; the numbers sum to 1, and the label predicted for a plain instance is one of the most probable ones.",
  "every non-empty training list, with or without pruning, every subset of attributes drawn, every query of the same types (exact arithmetic)",
  "all data sets, trees and queries",
  ["src/Model/DecisionTree/DecisionNode.cpp: DecisionNode, predictProbability", "src/Model/DecisionTree/DecisionTree.cpp: predictProbability, train, prune"])
p("Class probabilities of a neural network",
  "predictProbability of a trained network gives each class of the training data a number between 0 and 1, the numbers sum to 1, and the predicted label has the greatest.",
  "every trained network and numeric query",
  "all weights and queries",
  ["src/Model/NeuralNetwork/NeuralNetworkModel.cpp: predictProbability", "src/Model/NeuralNetwork/LinearPerceptronModel.cpp: calculateOutput"])
p("Training a decision tree with pruning succeeds",
  "Training a decision tree with pruning on a non-empty list of instances of one type returns a tree, and that tree predicts a label for every instance of the type.",
  "every such list, ratio in [0, 1] and split of the instances (exact arithmetic)",
  "all data sets, including those with very small classes",
  ["src/Model/DecisionTree/DecisionTree.cpp: train, prune, pruneNode", "src/InstanceList/Partition.cpp: Partition"])
p("The Mahalanobis distance is the quadratic form of its matrix",
  "MahalanobisDistance of two numeric instances is the quadratic form of the given matrix at the difference of their attribute vectors; it is symmetric, non-negative for a positive semidefinite matrix and zero only for equal vectors if the matrix is positive definite. Vectors of other sizes have distance INT_MAX.",
  "every square matrix and all pairs of instances (exact arithmetic)",
  "all matrices and vectors",
  ["src/DistanceMetric/MahalanobisDistance.cpp: distance"])
p("One nearest neighbour remembers the training data",
  "With k = 1 and the Euclidean metric, the k-NN classifier predicts for a plain instance with continuous and discrete attributes that occur in the training data the label they have there, with probability 1, if the training data are not contradictory there.",
  "every training list of one type, every such query (exact arithmetic)",
  "all training lists and queries",
  ["src/Model/NonParametric/KnnModel.cpp: train, predict, predictProbability, nearestNeighbors", "src/DistanceMetric/EuclidianDistance.cpp: distance"])
p("A decision tree does not depend on the order of the training instances",
  "Training a decision tree without pruning, a stump, or a random-forest tree with the same attribute subset, on the same instances in another order gives a tree that predicts the same label and the same class probabilities for every instance of the training types.",
  "every non-empty training list of one type and every reordering of it, all queries (exact arithmetic)",
  "all data sets and all permutations",
  ["src/Model/DecisionTree/DecisionNode.cpp: DecisionNode, predict, predictProbabilityDistribution", "src/Model/DecisionTree/DecisionTree.cpp: train", "src/Model/DecisionTree/DecisionStump.cpp: train"])
p("Parametric classifiers do not depend on the order of the training instances",
  "Training the dummy classifier, naive Bayes, the nearest-mean classifier, LDA or QDA on the same instances in another order gives the same predictions.",
  "every training list the classifier accepts and every reordering of it, all queries of the same type (exact arithmetic)",
  "all data sets and all permutations",
  ["src/Model/DummyModel.cpp: train", "src/Model/Parametric/NaiveBayesModel.cpp: train", "src/Model/Parametric/KMeansModel.cpp: train", "src/Model/Parametric/LdaModel.cpp: train", "src/Model/Parametric/QdaModel.cpp: train", "src/Model/Parametric/GaussianModel.cpp: predict"])
p("k nearest neighbours do not depend on the order of the training instances",
  "Training k-NN on the same instances in another order gives the same predictions and probabilities.",
  "every training list and every reordering of it, every k, distance and query",
  "all data sets and all permutations",
  ["src/Model/NonParametric/KnnModel.cpp: train, predict, nearestNeighbors"])
p("Instances behave as independent values",
  "Any sequence of calls that create instances, add, remove or overwrite attributes, project on a feature subset, apply filters to data sets or delete instances has the effect of the same calls on values: every instance reads as if nobody else could reach its attributes, and calls on other instances leave it as it is.",
  "every finite sequence of such calls on any number of instances",
  "all histories: aliasing shows only when one owner writes after another has copied the pointer",
  ["src/Instance/Instance.cpp: addAttribute, removeAttribute, removeAllAttributes, getSubSetOfFeatures, ~Instance", "src/Filter/LaryFilter.cpp: removeDiscreteAttributes", "src/Filter/Normalize.cpp: convertInstance", "src/Filter/Pca.cpp: convertInstance"])
p("Deleting instances",
  "Every instance can be deleted exactly once, in any order; its attributes go with it and no other instance changes.",
  "every history and every order of deletions",
  "all histories: a dangling pointer is not observable in a passing test",
  ["src/Instance/Instance.cpp: ~Instance, getSubSetOfFeatures", "src/InstanceList/InstanceList.cpp: ~InstanceList"])
p("Deleting all instances releases all attributes",
  "An attribute object exists only as long as an instance has it; when all instances are deleted none is left.",
  "every history",
  "all histories",
  ["src/Instance/Instance.cpp: removeAttribute, removeAllAttributes, ~Instance", "src/Filter/Pca.cpp: convertInstance", "src/Filter/LaryFilter.cpp: removeDiscreteAttributes"])
p("A trained k-NN classifier does not change when the data is edited later",
  "Once a k-NN classifier is trained, later calls on the instances do not change its predictions.",
  "every history before and after training, every query",
  "all histories",
  ["src/Model/NonParametric/KnnModel.cpp: train, predict", "src/Instance/Instance.cpp: getAttribute"])
p("Tree and forest files are loaded as the trees they describe",
  "A file in the format that loadModel of decision trees, stumps and forests reads is loaded as exactly the trees written in it, with nothing lost, added or reordered; the loaded tree sends every instance to the same leaf and gives the same predictions.",
  "every tree (any depth and fan-out), every forest, every instance",
  "all trees: recursion depth and fan-out are unbounded",
  ["src/Model/DecisionTree/DecisionNode.cpp: DecisionNode(ifstream&)", "src/Model/DecisionTree/DecisionCondition.cpp: DecisionCondition(ifstream&)", "src/Model/Ensemble/TreeEnsembleModel.cpp: load"])
p("Loading a model replaces the earlier contents of the object",
  "loadModel on an object that was trained or loaded before gives the same classifier as loadModel on a new object.",
  "every earlier state, every file, every query",
  "all histories: depends on what the object held before",
  ["src/Model/Parametric/LdaModel.cpp: loadWeights", "src/Model/Parametric/QdaModel.cpp: loadModel", "src/Model/Parametric/NaiveBayesModel.cpp: loadModel", "src/Model/NeuralNetwork/NeuralNetworkModel.cpp: load", "src/Model/Ensemble/TreeEnsembleModel.cpp: load", "src/Model/RandomModel.cpp: loadModel"])
p("Model files are loaded as the models they describe",
  "For every other classifier, a file in the format its loadModel reads gives back the class labels, weights, means and stored instances written in it.",
  "every perceptron, multi-layer and deep network, random classifier, LDA, QDA, k-NN and nearest-mean model, of any size",
  "all models: any number of classes, attributes, layers and instances",
  ["src/Model/NeuralNetwork/LinearPerceptronModel.cpp: loadModel", "src/Model/NeuralNetwork/MultiLayerPerceptronModel.cpp: loadModel", "src/Model/NeuralNetwork/DeepNetworkModel.cpp: loadModel", "src/Model/RandomModel.cpp: loadModel", "src/Model/Parametric/LdaModel.cpp: loadWeights", "src/Model/Parametric/QdaModel.cpp: loadModel", "src/Model/NonParametric/KnnModel.cpp: load", "src/Model/Parametric/KMeansModel.cpp: load", "src/InstanceList/InstanceList.cpp: InstanceList(ifstream&)"])
p("A nearest-mean classifier survives saving",
  "A saved nearest-mean classifier is loaded as a classifier with the same class distribution, means and predictions.",
  "every trained model, every query",
  "all models and queries",
  ["src/Model/Parametric/KMeansModel.cpp: serialize, loadModel", "src/InstanceList/InstanceList.cpp: serialize, InstanceList(ifstream&)"])
p("Unpruned trees learn data without contradictions",
  "A decision tree trained without pruning gives every training instance its own label, provided no two training instances have the same attributes and different labels.",
  "every training list (any number of instances, attributes and classes)",
  "all lists: depends on the greedy choices at every node",
  ["src/Model/DecisionTree/DecisionNode.cpp: DecisionNode", "src/Model/DecisionTree/DecisionTree.cpp: train, predict"])
p("Trees are not larger than their training data",
  "A tree grown from n instances has at most n leaves and at most 2n - 1 nodes, and no way from the root is longer than n - 1 steps.",
  "every training list, every tree grown from it, also with random subsets of attributes",
  "all lists: recursion of unbounded depth",
  ["src/Model/DecisionTree/DecisionNode.cpp: DecisionNode"])
p("Normalising removes units of measurement",
  "If the numbers of a column are given in another unit (v replaced by a v + b, a > 0), normalising the data set gives the same instances.",
  "every data set, every choice of a > 0 and b for every column",
  "all data and all units",
  ["src/Filter/Normalize.cpp: convertInstance", "src/InstanceList/InstanceList.cpp: average, standardDeviation"])
p("Naive Bayes does not depend on units of measurement",
  "Training on numbers in other units (v replaced by a v + b, a not 0, for every column) and asking in the same units gives the same predictions.",
  "every numeric training list with two or more instances per class, every query, all a and b",
  "all data and all units",
  ["src/Model/Parametric/NaiveBayesModel.cpp: train, logLikelihoodContinuous", "src/Model/Parametric/GaussianModel.cpp: predict"])
p("Discriminant analysis does not depend on units of measurement",
  "Linear and quadratic discriminant analysis trained on numbers in other units (v replaced by a v + b, a not 0, for every column) and asked in the same units give the same predictions.",
  "every numeric training list with non-singular covariance matrices, every query, all a and b",
  "all data and all units; any number of columns",
  ["src/Model/Parametric/LdaModel.cpp: train, calculateMetric", "src/Model/Parametric/QdaModel.cpp: train, calculateMetric", "src/Model/Parametric/GaussianModel.cpp: predict"])
p("Nearest neighbours and nearest means do not depend on a common unit or on the zero point",
  "Multiplying all numbers of training data and query by the same factor (or its negative) and shifting every column leaves the neighbours, predictions and class probabilities of k-NN and the predictions of the nearest-mean classifier with the Euclidean distance unchanged.",
  "every training list, k, query, factor and shifts; with plain discrete attributes the factor is 1",
  "all data and all units",
  ["src/DistanceMetric/EuclidianDistance.cpp: distance", "src/Model/NonParametric/KnnModel.cpp: nearestNeighbors, predict, predictProbability", "src/Model/Parametric/KMeansModel.cpp: train, calculateMetric"])
p("Decision trees do not depend on units of measurement or on the names of values",
  "Training a decision tree (with or without pruning), a stump, bagging or a random forest on numbers in other units (v replaced by a v + b, a > 0) and discrete values renamed one-to-one, and asking in the same words, gives the same predictions and class probabilities.",
  "every training list with equal attribute types, every a > 0, b and renaming per column, every query; same seed",
  "all data, units and renamings; recursion of unbounded depth",
  ["src/Model/DecisionTree/DecisionNode.cpp: DecisionNode, predict", "src/Model/DecisionTree/DecisionTree.cpp: train, prune", "src/Model/DecisionTree/DecisionStump.cpp: train", "src/Model/Ensemble/TreeEnsembleModel.cpp: predict"])
p("Trees made of objects behave as values",
  "Training a decision tree creates only new objects: whatever is in memory, it makes the same tree (or fails in the same way), the trained object answers as that tree, and every other tree object keeps its answers and shares nothing with the new one. Pruning changes the objects of one tree in place, gives the pruned tree, and writes nothing else.",
  "every memory content, training list, pruning choice, instance and other tree",
  "all memories and trees of any depth; the pruning recursion writes objects while the whole tree is being measured",
  ["src/Model/DecisionTree/DecisionNode.cpp: DecisionNode, predict, predictProbabilityDistribution", "src/Model/DecisionTree/DecisionTree.cpp: train, prune, pruneNode, predict, predictProbability"])
p("Destroying tree models",
  "Destroying a tree or forest object is defined and releases everything it holds exactly once; after training and destroying, the memory in use is as before, also when the object was trained more than once or copied.",
  "every memory content, tree, forest, training list",
  "all trees and histories of training, copying and destroying",
  ["src/Model/DecisionTree/DecisionTree.cpp: ~DecisionTree", "src/Model/DecisionTree/DecisionNode.cpp: ~DecisionNode", "src/Model/DecisionTree/SoftDecisionNode.cpp: ~SoftDecisionNode", "src/Model/Ensemble/TreeEnsembleModel.cpp: ~TreeEnsembleModel"])
p("Classifiers at the ends of their parameter ranges coincide",
  "k-nearest neighbours with at least as many neighbours as plain training instances answers as the classifier that always returns the majority class, with the same probabilities; an ensemble of copies of one tree predicts as the tree; a decision stump is the root and first level of the unpruned tree; a random forest whose attribute subsets are at least as large as the number of attributes is bagging.",
  "every training list, distance, number of trees, seed and instance",
  "all data and parameters; relates different classifiers to each other",
  ["src/Model/NonParametric/KnnModel.cpp: nearestNeighbors, predict", "src/Model/Ensemble/BaggingModel.cpp: train", "src/Model/Ensemble/RandomForestModel.cpp: train", "src/Model/DecisionTree/DecisionStump.cpp: train", "src/Model/DummyModel.cpp: predict"])
p("Summary of a data set",
  "The description of a data set states the numbers of instances, distinct classes and attributes of each kind, and lists every class once in order of first appearance, in a form that can be taken apart when no class name contains a semicolon; its class partition holds the instances of each class in order. This works for every data set, also one without instances.",
  "every data set",
  "all data sets of any size",
  ["src/DataSet/DataSet.cpp: getClasses, info, sampleSize, classCount, attributeCount, getClassInstances"])
p("Setting the possible classes of a composite instance",
  "After setting the possible classes of a composite instance, its possible classes are the ones given; class and attributes are unchanged.",
  "every composite instance and list of classes",
  "all earlier contents of the instance",
  ["src/Instance/CompositeInstance.cpp: setPossibleClassLabels, getPossibleClassLabels"])
p("Cross-validation results are those of new classifiers",
  "The i-th result of a K-fold run, plain or stratified, is what a new classifier of that kind, trained only on the i-th training set, gets on the i-th test set.",
  "every classifier, data set, number of folds, seed and earlier use of the classifier object",
  "all data and histories; a run shares one classifier object between folds",
  ["src/Experiment/KFoldRun.cpp: runExperiment, execute", "src/Experiment/StratifiedKFoldRun.cpp: execute", "src/Model/Parametric/LdaModel.cpp: train", "src/Model/Parametric/QdaModel.cpp: train", "src/Model/Parametric/NaiveBayesModel.cpp: train", "src/Model/Ensemble/BaggingModel.cpp: train", "src/Model/NeuralNetwork/DeepNetworkModel.cpp: train"])
p("Answers do not depend on earlier questions",
  "What a trained classifier answers for an instance does not depend on which instances it was asked about before.",
  "every trained classifier, history of questions and instance",
  "all histories of questions",
  ["src/Model/NeuralNetwork/NeuralNetworkModel.cpp: predict, predictProbability, createInputVector", "src/Model/DecisionTree/DecisionTree.cpp: predict"])
p("The predicted class is a most probable one",
  "The predicted class is among the classes with reported probabilities, and none of them has a larger probability.",
  "every training list and instance",
  "all data; relates two functions to each other",
  ["src/Model/DummyModel.cpp: predict, predictProbability", "src/Model/NonParametric/KnnModel.cpp: predict, predictProbability", "src/Model/Ensemble/BaggingModel.cpp: predict, predictProbability", "src/Model/DecisionTree/DecisionTree.cpp: predict, predictProbability"])
p("Feature selection finds a subset no single step improves",
  "The subset of features that feature selection returns is not less accurate than the non-empty subset it started from and than any non-empty subset one step away in the direction of the search, where the accuracy of a subset is what the same experiment gives with a new classifier on the data restricted to it.",
  "every search direction, kind of experiment, classifier, data set, seed and earlier use of the classifier object",
  "all data sets and histories; the search runs many experiments with one classifier object",
  ["src/FeatureSelection/SubSetSelection.cpp: execute", "src/Experiment/Experiment.cpp: featureSelectedExperiment", "src/Experiment/MultipleRun.h: execute"])
p("The order of the columns does not matter",
  "If the attributes of all training instances and of the instance asked about are put into another order (as restricting them to all features in that order does), the trained classifier makes the same prediction.",
  "every permutation of the columns, training data of any size, instance",
  "all permutations and data sets; ties between columns only appear on particular data",
  ["src/Model/Parametric/KMeansModel.cpp: calculateMetric", "src/Model/Parametric/NaiveBayesModel.cpp: calculateMetric", "src/Model/Parametric/LdaModel.cpp: calculateMetric", "src/Model/Parametric/QdaModel.cpp: calculateMetric", "src/Model/NonParametric/KnnModel.cpp: nearestNeighbors", "src/Model/DecisionTree/DecisionNode.cpp: DecisionNode", "src/Instance/Instance.cpp: getSubSetOfFeatures"])
p("The class of an instance has no influence on its prediction",
  "What a classifier answers for an instance (class and class probabilities) depends on the attributes and the possible classes of the instance, never on the class stored in it; so a test compares the true classes with predictions made without them.",
  "every classifier in every state (trained, loaded, new), every instance, every two classes",
  "all states and instances; leaking the class makes every test result look better instead of failing",
  ["src/Model/DummyModel.cpp: predict", "src/Model/RandomModel.cpp: predict", "src/Model/NonParametric/KnnModel.cpp: predict, predictProbability", "src/Model/Parametric/GaussianModel.cpp: predict", "src/Model/DecisionTree/DecisionNode.cpp: predict, predictProbabilityDistribution", "src/Model/Ensemble/TreeEnsembleModel.cpp: predict, predictProbability", "src/Model/NeuralNetwork/NeuralNetworkModel.cpp: predict, predictProbability", "src/Model/Svm/SvmModel.cpp: predict", "src/Model/DecisionTree/SoftDecisionTree.cpp: predict", "src/Model/Model.cpp: test"])
p("Training a decision tree returns in double precision",
  "Computed in IEEE double precision (round to nearest even, not in exact arithmetic), training a decision tree, a stump or a random-forest tree on a non-empty list of instances returns; the recursion is never deeper than the number of instances.",
  "every training list, every depth, every library of elementary functions; arithmetic with 53-bit significands",
  "all training lists; whether a useless division seems to lower the entropy depends on the last bit of the computed logarithms, so a few inputs recurse until the stack overflows while nearly all tests pass",
  ["src/Model/DecisionTree/DecisionNode.cpp: DecisionNode, createChildrenForDiscreteIndexed, createChildrenForContinuous, entropyForDiscreteAttribute", "src/Model/DecisionTree/DecisionTree.cpp: train"])
p("Sizes of the parts of a split in double precision",
  "Computed in IEEE double precision, a random split with ratio r puts floor(r n) or ceil(r n) of n instances in the first part, and a stratified split puts ceil(r n_c) of the n_c instances of each class there; nothing is lost or duplicated.",
  "every list of instances, every ratio between 0 and 1, every random order; arithmetic with 53-bit significands",
  "all class counts and ratios: the products round up past an integer for isolated combinations only, such as half of 14 out of 25",
  ["src/InstanceList/Partition.cpp: Partition", "src/InstanceList/InstanceList.cpp: classDistribution"])
p("Performance measures in double precision",
  "Computed in IEEE double precision, accuracy, precision and recall are the doubles nearest to the exact fractions; accuracy and error rate lie between 0 and 1, are 1 or 0 only if the exact values are, and add up to exactly 1; a classifier with more correct predictions on the same data has a larger accuracy; the F-measures and the mean over runs stay between 0 and 1.",
  "every list of class labels, every sequence of at most 2^53 classified instances, every sequence of runs",
  "all confusion matrices: rounding could push a measure over 1 or make two different accuracies equal on a few of them only",
  ["src/Performance/ConfusionMatrix.cpp: getAccuracy, precision, recall, fMeasure, weightedFMeasure", "src/Performance/DetailedClassificationPerformance.cpp: DetailedClassificationPerformance", "src/Performance/ExperimentPerformance.cpp: meanClassificationPerformance", "src/Model/Model.cpp: test"])
p("Zero spread in double precision",
  "Computed in IEEE double precision, the standard deviation of a continuous column is a non-negative number that is 0 exactly if all values are equal, and the paired tests refuse their input exactly if all differences (the two differences of every repetition, for the 5x2 tests) are equal.",
  "every list of instances with finite values, every two experiments with finite error rates; a library whose square and square root have the right sign and zero",
  "all columns and experiments: the computed mean of equal numbers differs from them for isolated values and lengths only (0.1 three times, for example), after which code that divides by the deviation misbehaves",
  ["src/InstanceList/InstanceList.cpp: continuousAttributeAverage, continuousAttributeStandardDeviation", "src/StatisticalTest/Pairedt.cpp: testStatistic", "src/StatisticalTest/Combined5x2f.cpp: testStatistic", "src/StatisticalTest/Combined5x2t.cpp: testStatistic", "src/StatisticalTest/Paired5x2t.cpp: testStatistic"])
p("The Euclidean distance in double precision",
  "Computed in IEEE double precision, the Euclidean distance of two instances of the same type with finite numbers is a non-negative number, 0 exactly if all continuous and plain discrete attributes agree, and symmetric; one nearest neighbour predicts the label of a training instance for an instance with the same attributes, with probability 1.",
  "every two instances of the same type with finite numbers, every training list; a library whose square has the right sign and zero",
  "all pairs of instances and all training lists",
  ["src/DistanceMetric/EuclidianDistance.cpp: distance", "src/Model/NonParametric/KnnModel.cpp: nearestNeighbors, predict, predictProbability"])
p("Classes may be called anything, as long as their alphabetical order stays",
  "If the classes are given other names everywhere, in the same alphabetical order, then every classifier trained on the renamed data gives the renamed answer: predicted classes and class probabilities are the old ones with the new names, and a run that ended in an error ends in the same error. The order is needed: exchanging the names of two classes changes the answers given in case of a tie.",
  "every training list, every instance (plain or with possible classes), every renaming that keeps the order of the names that occur, every parameter setting, the same random numbers; every classifier; any arithmetic",
  "all data sets and all names: code that treats a particular name or the length of a name specially, or compares names in one place and positions in another, goes unnoticed with the names of a test file",
  ["src/Model/DummyModel.cpp: predict", "src/Model/RandomModel.cpp: predict", "src/Model/NonParametric/KnnModel.cpp: predict, predictProbability", "src/Model/Parametric/KMeansModel.cpp: train", "src/Model/Parametric/NaiveBayesModel.cpp: train", "src/Model/Parametric/LdaModel.cpp: train", "src/Model/Parametric/QdaModel.cpp: train", "src/Model/DecisionTree/DecisionTree.cpp: train, predict", "src/Model/Ensemble/TreeEnsembleModel.cpp: predict", "src/Model/NeuralNetwork/NeuralNetworkModel.cpp: predict, predictProbability", "src/Model/DecisionTree/SoftDecisionTree.cpp: train, predict", "src/Model/Svm/SvmModel.cpp: train, predict"])
p("An instance list contains what was added since it was last emptied",
  "After any sequence of calls of add, addAll and clear, a list contains exactly the instances brought by the calls since the last clear, in order and with repetitions; size is their number, get(i) the i-th of them, and an exception beyond the end.",
  "every sequence of calls on a list, every index",
  "all histories",
  ["src/InstanceList/InstanceList.cpp: add, addAll, clear, get, size"])
p("Class probabilities of a network in double precision",
  "Computed in IEEE double precision, the class probabilities a network computes from its activations are numbers between 0 and 1, in the order of the activations, that add up to 1 up to rounding.",
  "every list of finite activations; a library whose exp has the range of binary64; arithmetic with 53-bit significands",
  "all activations: the exponentials overflow only beyond about 709 and vanish below about -745, values that do not appear in small tests",
  ["src/Model/NeuralNetwork/NeuralNetworkModel.cpp: normalizeOutput, calculateRMinusY"])
p("Training a perceptron in double precision yields numbers",
  "Computed in IEEE double precision, training a perceptron on finite numbers yields weights that are numbers (not NaN).",
  "every training list of finite numbers, every parameter setting, every random initial weights; a library whose exp has the range of binary64",
  "all training data and numbers of epochs: whether an activation ever leaves the range of exp depends on the scale of the data and on the whole course of the training",
  ["src/Model/NeuralNetwork/LinearPerceptronModel.cpp: train, calculateOutput", "src/Model/NeuralNetwork/NeuralNetworkModel.cpp: normalizeOutput, calculateRMinusY, predict"])
p("The multipliers of the support vector machine in double precision",
  "Computed in IEEE double precision, every multiplier is at all times a number between 0 and C (exactly, in spite of rounding, also when the curvature of a pair is zero and the step is infinite), the constraint that the multipliers weighted with the labels add up to 0 is violated after n rounds by at most n*C/2^51, and the offset handed back is a number.",
  "every list of rows with finite kernel values, every labels 1 and -1, every finite C that is not negative, every number of rounds, with and without shrinking; arithmetic with 53-bit significands",
  "all problems and numbers of rounds: rounding errors depend on the last bits of the data, and add up over the rounds",
  ["src/Model/Svm/Solver.cpp: solve, selectWorkingSet, doShrinking, reconstructGradient, calculateRho", "src/Model/Svm/QMatrix.cpp: getQ", "src/Model/Svm/Kernel.cpp: function"])
p("Data files that were cut short",
  "If writing a data file stopped at any place, reading what is there with declared types gives exactly the instances whose lines are complete; reading it with guessed types gives the types of the whole file and a beginning of its instances, with nothing added.",
  "every data set that can be written, every place at which its file can end; every text for the reader with declared types",
  "all crash points: the file can end inside any field of any line",
  ["src/DataSet/DataSet.cpp: DataSet, writeToFile", "src/InstanceList/InstanceList.cpp: InstanceList"])
p("Model files that were cut short",
  "A model file that ends too early is noticed: loading it does not give a model that differs from the saved one.",
  "every model, every line after which its file can end",
  "all crash points of saving a model",
  ["src/Model/Svm/SvmModel.cpp: SvmModel, serialize", "src/Model/Svm/NodeList.cpp: NodeList", "src/Model/Svm/Node.cpp: Node"])
p("Class probabilities obtained by counting, in double precision",
  "Computed in IEEE double precision, the class probabilities of the dummy classifier, of k nearest neighbours, of ensembles and of decision trees are positive and at most 1, 1 exactly if only one class was counted, each the double nearest to the exact share; they add up to 1 with an error of at most 2^-53, are ordered as the counts are, equal only for equal counts, and the predicted class of a plain instance has the largest.",
  "every training list and every instance, with fewer than 2^53 instances (neighbours, trees) counted; arithmetic with 53-bit significands",
  "all counts: rounding depends on the last bits of quotients",
  ["src/Model/DummyModel.cpp: predict, predictProbability", "src/Model/NonParametric/KnnModel.cpp: predictProbability", "src/Model/Ensemble/TreeEnsembleModel.cpp: predictProbability", "src/Model/DecisionTree/DecisionNode.cpp: predictProbabilityDistribution"])
p("Agreeing evidence does not change an answer",
  "If a nearest neighbour classifier predicts a class for an instance, then adding to its training set one more instance of that class, anywhere in the list and at any distance, leaves the prediction unchanged; the same holds for the dummy classifier on plain and composite instances, and for an ensemble that gets one more tree voting for the predicted class.",
  "every training list, every instance, every position and every added instance or tree whose class is the predicted one",
  "all histories: an added neighbour shifts which neighbours are looked at and how ties are broken",
  ["src/Model/NonParametric/KnnModel.cpp: predict, nearestNeighbors", "src/Model/DummyModel.cpp: predict", "src/Model/Ensemble/TreeEnsembleModel.cpp: predict"])
p("Repeating every training instance the same number of times changes nothing",
  "Training on a list in which every instance is written n times gives a classifier that answers as the one trained on the list itself: the dummy and the random classifier, the nearest class mean, a nearest neighbour classifier that looks at n times as many neighbours, and a decision tree grown without pruning, for labels of plain and composite instances and for class probabilities, in exact arithmetic. Naive Bayes is different: because of add-one smoothing there is a list for which giving every instance twice changes a prediction.",
  "every non-empty training list, every n above 0 and every instance",
  "all training lists: ties in sorted neighbours, entropies and class counts all have to scale alike",
  ["src/Model/DummyModel.cpp: predict, predictProbability", "src/Model/RandomModel.cpp: predict, train", "src/Model/Parametric/KMeansModel.cpp: train, calculateMetric", "src/Model/NonParametric/KnnModel.cpp: predict, nearestNeighbors", "src/Model/DecisionTree/DecisionNode.cpp: DecisionNode", "src/Model/Parametric/NaiveBayesModel.cpp: train, calculateMetric"])
p("Every attribute can have an influence on a random forest",
  "The trees of a random forest look at randomly chosen attributes; with enough trees every attribute of the data has a chance to be used. In fact all nodes of all trees look at the same attributes, the first ones of one shuffled list: the conditions of every tree are about these, changing other attributes of a query changes neither the predicted class nor the probabilities, and changing other attributes of the training data gives the same forest.",
  "every training list whose instances have equally many attributes, every number of trees, every seed, every way of drawing samples and every query",
  "a statement about all forests: a test sees that one attribute is unused in one forest, not that no number of trees could use it",
  ["src/Model/DecisionTree/DecisionNode.cpp: DecisionNode", "src/Model/Ensemble/RandomForestModel.cpp: train", "src/Model/Ensemble/TreeEnsembleModel.cpp: predict, predictProbability", "src/Parameter/RandomForestParameter.cpp: getAttributeSubsetSize"])
p("Training takes a parameter object of the class it expects, or of a derived class",
  "train of every classifier casts the parameter object it is given without a check. Training ends normally only with an object of the expected class or of one derived from it; an object of a derived class is as good as one of the base class made with the same arguments; and a number of epochs that is zero or negative leaves a network with its first random weights.",
  "every parameter object of the library, every classifier that reads one, every training list and whatever the random engines answer",
  "all combinations of classes and classifiers, for all data; a wrong cast may seem to work in a test",
  ["src/Parameter/Parameter.cpp: getSeed", "src/Parameter/LinearPerceptronParameter.cpp: getEpoch, getCrossValidationRatio", "src/Parameter/MultiLayerPerceptronParameter.cpp: getHiddenNodes", "src/Parameter/KnnParameter.cpp: getK", "src/Parameter/BaggingParameter.cpp: getEnsembleSize", "src/Model/NeuralNetwork/LinearPerceptronModel.cpp: train", "src/Model/Svm/SvmModel.cpp: train", "src/Model/DecisionTree/DecisionTree.cpp: train"])
p("Every argument given to a parameter object can make a difference",
  "Whoever sets an argument of a parameter object relies on it being used. Several never are: the seed of the parameters of bagging (the samples are drawn with seeds 0, 1, 2, ...), of nearest neighbours, nearest means and support vector machines; seed and ratio for a tree that is not pruned; decrease of the learning rate, validation ratio and activation function for an auto-encoder; the learning rate for a soft decision tree; the seed of a random forest that may use all attributes.",
  "every pair of values of the unused arguments, every training list and whatever the random engines answer",
  "all values and all data: a test shows that two values give the same classifier once",
  ["src/Model/Ensemble/BaggingModel.cpp: train", "src/Model/NonParametric/KnnModel.cpp: train", "src/Model/Parametric/KMeansModel.cpp: train", "src/Model/Svm/SvmModel.cpp: train", "src/Model/DecisionTree/DecisionTree.cpp: train", "src/Model/NeuralNetwork/AutoEncoderModel.cpp: train", "src/Model/DecisionTree/SoftDecisionTree.cpp: train", "src/Parameter/SoftDecisionTreeParameter.cpp: getAlpha"])
p("Networks trained on instances with different numbers of inputs",
  "Training a neural network on a list whose instances have different numbers of inputs either succeeds or fails in a defined way. The instances that do not fit the network are skipped by every pass over the training part, for all four networks. But the validation after each epoch uses the last output of the object for them, so on a new object it can read the largest of no outputs, which is undefined; whether it does depends on the order of the instances and on what the object was asked before. The reconstruction of such an instance by an auto-encoder is undefined.",
  "every list of instances, all weights and parameters, all values the object has stored before",
  "a test sees one order of the shuffled instances and one object history",
  ["src/Model/NeuralNetwork/LinearPerceptronModel.cpp: train", "src/Model/NeuralNetwork/MultiLayerPerceptronModel.cpp: train", "src/Model/NeuralNetwork/DeepNetworkModel.cpp: train", "src/Model/NeuralNetwork/AutoEncoderModel.cpp: train, predictInput", "src/Model/NeuralNetwork/NeuralNetworkModel.cpp: createInputVector, predict", "src/Model/ValidatedModel.cpp: testClassifier"])
p("What a soft decision tree starts with, and trees without a split",
  "A new node of a soft decision tree starts with values between -0.01 and 0.01, each from a random number of its own, and a split uses exactly the random numbers of the six nodes it creates. If training ends without a split, nothing has been learned: the scores of every instance are the first random numbers, scaled, and every instance gets the same class label, that of the first largest of the first random numbers, one per class, whatever the training data. This is always so when the validation part is empty.",
  "every sequence of random numbers (the range: those between 0 and 1), every training list of numeric instances which leaves an instance of each class to learn from, every query",
  "a test sees one seed, and a constant prediction may be right for the few instances it looks at",
  ["src/Model/DecisionTree/SoftDecisionNode.cpp: SoftDecisionNode, learnParameters, createSoftDecisionTree, errorOfSoftDecisionTree", "src/Model/DecisionTree/SoftDecisionTree.cpp: train, predict"])
p("Shrinking loses no row that could improve the solution",
  "While training a support vector machine the solver stops looking at some rows (shrinking). In every state it reaches, a shrinking step changes no multiplier, and two rows it looks at, of which the first can rise and the second can fall without making the objective worse, are both looked at afterwards; in particular the pair with the largest violation. When it looks at all rows again, it takes back every row that forms such a pair with a row it looked at before.",
  "every problem with labels +1 and -1 and derivatives a double can hold, every number of rounds of the solver, in exact arithmetic",
  "shrinking happens only on larger problems after many rounds; a test sees the final result of a few of them",
  ["src/Model/Svm/Solver.cpp: doShrinking, selectWorkingSet, swapIndex, reconstructGradient"])
p("A column with the same value in all training instances has no influence",
  "If one more column is added to the training data that has the same value in all instances, the predictions stay the same, whatever the instance asked about has in that column. So for nearest neighbours with the Euclidean distance (also their neighbours and probabilities), nearest means of numbers, and decision trees with and without pruning, stumps and bagged trees (also their probabilities). Not so for naive Bayes: on nominal data the smoothed counts give such a value a higher probability in larger classes, on numbers the deviation of the column is zero, all scores are NaN and the most frequent class is predicted.",
  "every list of training instances, every position and value of the column, every instance asked about, in exact arithmetic",
  "a test compares a few predictions with and without one column",
  ["src/Model/NonParametric/KnnModel.cpp: nearestNeighbors, predict, predictProbability", "src/DistanceMetric/EuclidianDistance.cpp: distance", "src/Model/Parametric/KMeansModel.cpp: train, calculateMetric", "src/Model/DecisionTree/DecisionNode.cpp: DecisionNode", "src/Model/Parametric/NaiveBayesModel.cpp: train, logLikelihoodContinuous, logLikelihoodDiscrete", "src/Model/Parametric/GaussianModel.cpp: predict"])
p("An instance of a new class changes answers only to that class",
  "If an instance whose class is not in the training data is added to them, every answer of the classifier stays the same or becomes the new class, and the new class can be answered. So for the nearest mean, for the nearest neighbour (k = 1), for the dummy classifier and for naive Bayes on discrete attributes. Not so for LDA: the covariance of the one instance is 0/0, so all discriminants are NaN and every plain instance is given the most frequent class. Not so for QDA and naive Bayes on numbers: the score of the new class is NaN everywhere, so it is never answered because of its score, not even for the instance itself.",
  "every list of training instances, every added instance at every place, every instance asked about, in double precision or any ordered arithmetic",
  "a test trains on data where every class has several instances",
  ["src/Model/Parametric/LdaModel.cpp: train, calculateMetric", "src/Model/Parametric/QdaModel.cpp: train, calculateMetric", "src/Model/Parametric/NaiveBayesModel.cpp: train, logLikelihoodContinuous", "src/InstanceList/InstanceList.cpp: covariance, standardDeviation", "src/Model/Parametric/GaussianModel.cpp: predict", "src/Model/Parametric/KMeansModel.cpp: train, calculateMetric", "src/Model/NonParametric/KnnModel.cpp: nearestNeighbors, predict"])
p("Every weight of a network starts from a random number of its own",
  "The weights of a network are set to random numbers before training, each to a number of its own, so that the layers do not depend on each other. So for the one layer of a perceptron. Not so for the multi-layer perceptron, the auto-encoder and the deep network: the engine is copied, or made anew from the seed, for each layer, so that all the layers get the same numbers from the first one on, and layers of the same size are equal. A deep network with tanh keeps them however long it is trained.",
  "every seed and engine, every training list, all sizes of layers",
  "all seeds and sizes: a test sees that the numbers look random",
  ["src/Model/NeuralNetwork/NeuralNetworkModel.cpp: allocateLayerWeights", "src/Model/NeuralNetwork/MultiLayerPerceptronModel.cpp: allocateWeights", "src/Model/NeuralNetwork/DeepNetworkModel.cpp: allocateWeights", "src/Model/NeuralNetwork/AutoEncoderModel.cpp: allocateWeights", "src/Model/NeuralNetwork/LinearPerceptronModel.cpp: train"])
p("A composite instance is answered with one of its possible classes",
  "An instance that comes with a list of possible classes is answered with a class of that list, if it is answered at all. So for dummy, random, nearest mean, naive Bayes, LDA, QDA, nearest neighbours, trees, ensembles with a tree and networks. Not so for the support vector machine and the soft decision tree, which do not look at the list: if the class they give to the plain instance is not on it, they answer it all the same.",
  "every state of every classifier, every instance, every list of possible classes",
  "all states and all lists: tests use plain instances, or lists that contain the right answer",
  ["src/Model/Parametric/GaussianModel.cpp: predict", "src/Model/NonParametric/KnnModel.cpp: predict", "src/Model/DecisionTree/DecisionTree.cpp: predict", "src/Model/Ensemble/TreeEnsembleModel.cpp: predict", "src/Model/NeuralNetwork/NeuralNetworkModel.cpp: predict", "src/Model/Svm/SvmModel.cpp: predict", "src/Model/DecisionTree/SoftDecisionTree.cpp: predict", "src/Model/DummyModel.cpp: predict", "src/Model/RandomModel.cpp: predict", "src/Instance/CompositeInstance.cpp: getPossibleClassLabels"])
p("Ruling out other classes does not change an answer",
  "If an instance is answered with class c and is then asked again together with possible classes that include c, the answer is c again, or a possible class that does just as well. So for dummy, nearest mean, naive Bayes, LDA and QDA (if some class has a score), trees, networks with proper outputs, one nearest neighbour, and k nearest neighbours if the classes of all k are possible; the support vector machine and the soft decision tree ignore the list. Not so for several nearest neighbours (instances of impossible classes are skipped, and others take their places), for ensembles (a tree whose class is ruled out changes its vote) and for LDA when no class has a score.",
  "every trained state, every instance, every list of possible classes that contains the answer",
  "all lists of possible classes and all states",
  ["src/Model/Parametric/GaussianModel.cpp: predict", "src/Model/NonParametric/KnnModel.cpp: nearestNeighbors", "src/Model/DecisionTree/DecisionTree.cpp: predict", "src/Model/Ensemble/TreeEnsembleModel.cpp: predict", "src/Model/NeuralNetwork/NeuralNetworkModel.cpp: predictWithCompositeInstance", "src/Model/Svm/SvmModel.cpp: predict", "src/Model/DecisionTree/SoftDecisionTree.cpp: predict"])
p("The order of the folds does not matter to a statistical test",
  "If the folds of two experiments are listed in another order, the same for both, a test gives the same statistic and the same result: for the sign test and the paired t test any order, for the combined 5x2 F and t tests any order that keeps the two folds of a repetition together. Not so for the 5x2 paired t test, which takes its numerator from the first fold alone: if the two folds of the first repetition change places the statistic can drop from the square root of 10 to 0.",
  "all pairs of experiments, all reorderings; the sign test with any numbers, the others in exact arithmetic",
  "all reorderings of all results",
  ["src/StatisticalTest/Sign.cpp: compare", "src/StatisticalTest/Pairedt.cpp: testStatistic", "src/StatisticalTest/Combined5x2f.cpp: testStatistic", "src/StatisticalTest/Combined5x2t.cpp: testStatistic", "src/StatisticalTest/Paired5x2t.cpp: testStatistic"])
p("Statistical tests do not depend on the unit of the error rates",
  "If all error rates of two experiments are multiplied by the same positive number (per cent instead of fractions) and shifted by the same number, each of the five tests gives the same statistic, the same p-value and the same refusals.",
  "all pairs of experiments, all positive factors, all shifts, in exact arithmetic",
  "all factors, shifts and results",
  ["src/StatisticalTest/Sign.cpp: compare", "src/StatisticalTest/Pairedt.cpp: testStatistic, compare", "src/StatisticalTest/Combined5x2f.cpp: testStatistic, compare", "src/StatisticalTest/Combined5x2t.cpp: testStatistic, compare", "src/StatisticalTest/Paired5x2t.cpp: testStatistic, compare"])
p("The order of the test instances does not matter",
  "Testing a classifier on the same instances in another order gives exactly the same accuracy, error rate and confusion matrix; precision, recall and F-measure of each class are the same, at the place of the class in the list of labels, and in exact arithmetic also the weighted F-measure.",
  "every classifier, every list of test instances, every order; any numbers",
  "all orders of all test sets",
  ["src/Model/Model.cpp: test", "src/Model/ValidatedModel.cpp: testClassifier", "src/Performance/ConfusionMatrix.cpp: classify, precision, recall, fMeasure, weightedFMeasure", "src/InstanceList/InstanceList.cpp: getUnionOfPossibleClassLabels"])
p("Every attribute type has an influence",
  "A classifier can use attributes of every type; in particular, data converted by LaryToBinary keep what the discrete attributes say about the class. Not so: two training sets that differ in the values of binary attributes only give the same trained model, and two instances that differ in the values of binary attributes only get the same answer and the same class probabilities, for decision trees, stumps, bagging, random forests, nearest neighbours with either distance, nearest mean, naive Bayes, LDA, QDA, the four networks, support vector machines and soft decision trees. A set that a tree classifies without error is, after LaryToBinary, answered with one class for all instances.",
  "all training sets, all queries, all classifiers that read attributes; any numbers",
  "all data and all classifiers",
  ["src/Model/DecisionTree/DecisionNode.cpp: DecisionNode", "src/DistanceMetric/EuclidianDistance.cpp: distance", "src/Instance/Instance.cpp: toVector", "src/Filter/LaryToBinary.cpp: convertInstance", "src/Model/Parametric/NaiveBayesModel.cpp: logLikelihoodContinuous, logLikelihoodDiscrete", "src/InstanceList/InstanceList.cpp: attributeDistribution, allAttributesDistribution"])
p("Every classifier gives class probabilities with its answer",
  "For an instance a classifier answers, predictProbability gives a map in which the answer has a probability and no class has a larger one. This holds for the dummy and the random classifier, nearest neighbours, decision trees and stumps, bagging, random forests and networks with one real output for each class. Nearest mean, naive Bayes, LDA, QDA and support vector machines give an empty map for every instance; a soft decision tree gives an empty map if it has no split, and dereferences a null pointer otherwise.",
  "all trained classifiers of all kinds, all instances that are not composite, in exact arithmetic; the failures with any numbers",
  "all classifiers, training sets and queries",
  ["src/Model/Model.h: predictProbability", "src/Model/DecisionTree/SoftDecisionTree.h: SoftDecisionTree", "src/Model/DecisionTree/DecisionTree.cpp: predictProbability", "src/Model/DecisionTree/DecisionCondition.cpp: satisfy", "src/Model/Parametric/GaussianModel.h: GaussianModel", "src/Model/Svm/SvmModel.h: SvmModel"])
p("A stored soft decision tree can be used again",
  "After serialize and loadModel a soft decision tree answers as before. Not so: what is written depends on the shape of the tree only, no weight, output or class is written; after loadModel the next prediction has undefined behaviour whatever was read; and the file of a tree without a split cannot be read at all.",
  "all soft decision trees, all files, all instances",
  "all trees and all files",
  ["src/Model/DecisionTree/DecisionTree.cpp: serialize, loadModel", "src/Model/DecisionTree/DecisionNode.cpp: serialize", "src/Model/DecisionTree/SoftDecisionTree.cpp: predict"])
p("Sorting is asked only for what std::stable_sort can do",
  "Whenever instances are sorted by a number (sort(i), used by every decision tree, and the search of nearest neighbours), the comparison is a strict weak ordering of the instances to be sorted, as the C++ standard requires. This is so exactly when no number is NaN, or the numbers that are not NaN are all equal; nothing keeps NaN out: a data file with the text nan in a numeric column is accepted. Sorting by class label always meets the requirement.",
  "all instance lists, all columns of numbers, all nearest neighbour models and queries, any arithmetic with IEEE comparisons",
  "all lists; a comparison that is not a strict weak ordering may go unnoticed in a test",
  ["src/InstanceList/InstanceList.cpp: sort, InstanceComparator", "src/Model/NonParametric/KnnModel.cpp: nearestNeighbors", "src/Model/DecisionTree/DecisionNode.cpp: DecisionNode"])
p("The order of the trees in an ensemble does not matter",
  "Two ensembles of the same trees in different orders give the same answer and the same class probabilities for every instance, or both fail. So an ensemble trained on the same samples in another order gives the same answers.",
  "all ensembles, all reorderings, all instances, any arithmetic",
  "all ensembles and all reorderings",
  ["src/Model/Ensemble/TreeEnsembleModel.cpp: predict, predictProbability", "src/Model/Ensemble/BaggingModel.cpp: train", "src/Model/Ensemble/RandomForestModel.cpp: train"])
p("An indexed attribute is as good as its columns of zeros and ones",
  "If each indexed attribute with m values is replaced by m numbers, 1 for its index and 0 for the others, in the training data and in the query, the trained classifiers and the answers are the same. This holds for nearest neighbours with the Mahalanobis distance, the networks, support vector machines, and, in exact arithmetic, linear and quadratic discriminant analysis, decision trees with and without pruning, stumps and bagged trees; for the trees there may also be attributes of the other kinds. It fails for the Euclidean distance, which overlooks indexed attributes, for nearest mean and naive Bayes, which dereference a null pointer, and for soft decision trees, whose training throws.",
  "all training sets and queries with numbers and indexed values (trees: any attributes), all training parameters",
  "all training sets, parameters and queries",
  ["src/Attribute/DiscreteIndexedAttribute.cpp: continuousAttributes", "src/Instance/Instance.cpp: toVector", "src/InstanceList/InstanceList.cpp: continuousAttributeAverage, covariance, average", "src/DistanceMetric/EuclidianDistance.cpp: distance", "src/Model/DecisionTree/SoftDecisionTree.cpp: SoftDecisionTree"])
p("Applying a filter a second time changes nothing",
  "Converting a data set with DiscreteToContinuous, LaryToBinary or DiscreteToIndexed and then with any of the three again leaves instances and data set as they were after the first conversion, although the first one left the data definition stale. Normalising normalised data changes nothing either, if every numeric column has a positive standard deviation.",
  "all data sets of distinct instance objects that fit their definition, all pairs of filters, any arithmetic (Normalize: exact arithmetic)",
  "all data sets and all pairs of filters",
  ["src/Filter/FeatureFilter.cpp: convert", "src/Filter/LaryFilter.cpp: removeDiscreteAttributes", "src/Filter/DiscreteToContinuous.cpp: convertInstance, convertDataDefinition", "src/Filter/LaryToBinary.cpp: convertInstance, convertDataDefinition", "src/Filter/DiscreteToIndexed.cpp: convertInstance, convertDataDefinition", "src/Filter/Normalize.cpp: convertInstance"])
p("Training and test data converted separately are coded alike",
  "If the training data and the test data are converted with the same kind of filter, equal instances stay equal. This holds for the three filters of discrete attributes if every discrete attribute takes the same values in both data sets. It fails otherwise: each filter uses the values (for Normalize the mean and the deviation) of the data set it is given, so a value can get another column, or two different values the same code.",
  "all pairs of data sets without common objects, all three filters, any arithmetic",
  "all pairs of data sets",
  ["src/Filter/LaryFilter.cpp: LaryFilter", "src/Filter/FeatureFilter.cpp: convert", "src/Filter/Normalize.cpp: Normalize"])
p("What pruning returns",
  "Pruning treats every subtree by itself: an inner node becomes a leaf exactly if it is then right at least as often on the instances of the pruning set that reach it, otherwise its children are pruned in the same way. After pruning every further cut loses right answers, pruning again changes nothing, and the order of the pruning set does not matter. The result is the best tree that can be had by cutting. The last sentence is false: nodes are tried from the root downwards.",
  "all trees, all non-empty pruning sets with plain and composite instances (exact arithmetic; order: any arithmetic)",
  "all trees of any depth and all pruning sets",
  ["src/Model/DecisionTree/DecisionTree.cpp: prune, pruneNode", "src/Model/DecisionTree/DecisionNode.cpp: predict", "src/Model/ValidatedModel.cpp: testClassifier"])
p("A call that throws leaves the object as it was",
  "If train or convert throws an exception, the classifier, forest or data it was called on is as before the call. This holds for decision trees without pruning, for decision stumps, and for LDA and QDA when they refuse a list at once; LDA never loses its weights. It fails for naive Bayes, nearest mean, LDA's class frequencies, pruned trees, bagging, random forests and filters, where the part done before the exception stays.",
  "all objects with any history, all training lists and data sets, every point at which the call can throw, any arithmetic",
  "every exception point of every call",
  ["src/Model/Parametric/NaiveBayesModel.cpp: train, trainContinuousVersion", "src/Model/Parametric/KMeansModel.cpp: train", "src/Model/Parametric/LdaModel.cpp: train", "src/Model/Parametric/QdaModel.cpp: train", "src/Model/DecisionTree/DecisionTree.cpp: train, pruneNode", "src/Model/DecisionTree/DecisionStump.cpp: train", "src/Model/Ensemble/BaggingModel.cpp: train", "src/Model/Ensemble/RandomForestModel.cpp: train", "src/Filter/FeatureFilter.cpp: convert"])
p("Linear classifiers answer between two instances what they answer at both",
  "If linear discriminant analysis, the nearest-mean classifier with the Euclidean distance, the linear perceptron or a support vector machine with the linear kernel and two classes gives the same answer to two numeric instances, it gives this answer to every instance on the straight line between them.",
  "every LDA object and every perceptron with any weights, every nearest-mean classifier trained on numbers, every two-class linear support vector machine trained by a new object whatever the solution of its problem is, all pairs of instances and all points between them, ties included (exact arithmetic; scores above -DBL_MAX at both ends)",
  "all pairs of points and all points between them",
  ["src/Model/Parametric/LdaModel.cpp: calculateMetric", "src/Model/Parametric/GaussianModel.cpp: predict", "src/Model/Parametric/KMeansModel.cpp: calculateMetric", "src/DistanceMetric/EuclidianDistance.cpp: distance", "src/Model/NeuralNetwork/LinearPerceptronModel.cpp: calculateOutput", "src/Model/NeuralNetwork/NeuralNetworkModel.cpp: predict", "src/Model/Svm/SvmModel.cpp: predict"])
p("Classes of the same spread",
  "If all classes have the same covariance matrix, linear and quadratic discriminant analysis give the same answers. If moreover the attributes are uncorrelated with the same variance and the classes have the same size, both agree with the nearest-mean classifier. If all attributes have the same standard deviation in all classes and the classes have the same size, naive Bayes agrees with the nearest-mean classifier.",
  "all numeric training lists with two or more instances of every class, plain and composite queries (exact arithmetic)",
  "all training lists and all queries",
  ["src/Model/Parametric/LdaModel.cpp: train, calculateMetric", "src/Model/Parametric/QdaModel.cpp: train, calculateMetric", "src/Model/Parametric/NaiveBayesModel.cpp: logLikelihoodContinuous", "src/Model/Parametric/KMeansModel.cpp: train, calculateMetric"])
p("Numbers near the ends of the range of double",
  "Finite values are handled correctly whatever their magnitude: training a decision tree returns, the mean of a column is finite, the standard deviation of a column with different values is positive, and the Euclidean distance of two instances is finite and 0 only if they agree. False for very large and very small values: sums of two values that overflow give an infinite split value and a tree that is never finished, the mean of two values of 2^1023 or more is infinite, values below 2^-539 have deviation 0, differences of 2^-538 or less give distance 0 and differences of 2^512 or more an infinite one. True within stated ranges.",
  "every list of instances with finite doubles (53-bit significands, gradual underflow, overflow to infinity), every pair of instances",
  "all magnitudes of all values, with rounding, underflow and overflow at every operation",
  ["src/Model/DecisionTree/DecisionNode.cpp: DecisionNode, createChildrenForContinuous", "src/InstanceList/InstanceList.cpp: attributeAverage, attributeStandardDeviation", "src/DistanceMetric/EuclidianDistance.cpp: distance"])
p("The random generator of the process",
  "What a call that uses random numbers returns does not depend on the calls made before. True of training soft decision trees: with the same seed and data they come out alike whatever the program has done before, and the generator is left in the same state, (2K + d + 1)(12 n + 7) numbers after the seed for K classes, d attributes and n splits. False of random classifiers: all of them draw consecutive numbers of the one generator of the process (each answer is the class at position number mod number of classes), so an answer depends on how many questions any of them has been asked before; and training a soft decision tree resets them, so that after two trainings with the same seed all answers repeat.",
  "every generator and state, every sequence of questions to random classifiers and of trainings of soft decision trees",
  "all sequences of calls and all generators",
  ["src/Model/RandomModel.cpp: predict", "src/Model/DecisionTree/SoftDecisionTree.cpp: train", "src/Model/DecisionTree/SoftDecisionNode.cpp: getRandomValue, SoftDecisionNode"])
p("Training and splitting leave the list they are given as it was",
  "The instance list passed to train or to a random split is the same afterwards. It always contains the same instances, and training and testing of all classifiers but one, and stratified splits, leave it untouched. False for support vector machines, which sort it by class, and for splits without stratification, which shuffle it: a nearest-neighbour classifier trained on the list afterwards can answer otherwise than one trained before. Another support vector machine, the dummy classifier and, in exact arithmetic, unpruned trees, stumps, nearest means and discriminants do not notice.",
  "every list and every sequence of trainings, tests and splits of it",
  "all sequences of uses of a shared list",
  ["src/Model/Svm/SvmModel.cpp: train", "src/InstanceList/Partition.cpp: Partition", "src/InstanceList/InstanceList.cpp: sort, shuffle", "src/Model/DecisionTree/DecisionNode.cpp: DecisionNode"])
p("Training a network for more epochs",
  "If training a network with n + m epochs succeeds, so does training it with n epochs on the same data and seed, and the longer training does not give a network that is worse on the validation part: it gives the same network, or one with a strictly greater validation accuracy (auto-encoder: a strictly smaller validation error). True unless the shorter training ended with the initial random weights; false for these, which are never compared with the others, so that one epoch can turn a network that gets two thirds of the validation part right into one that gets one third right.",
  "every network and every data set, seed and pair of numbers of epochs",
  "all pairs of numbers of epochs and all data",
  ["src/Model/NeuralNetwork/LinearPerceptronModel.cpp: train", "src/Model/NeuralNetwork/MultiLayerPerceptronModel.cpp: train", "src/Model/NeuralNetwork/DeepNetworkModel.cpp: train", "src/Model/NeuralNetwork/AutoEncoderModel.cpp: train"])
p("The order of the instances in the epochs",
  "In every epoch a network is shown every instance of the learning part exactly once, in an order drawn anew. The first half is true of all networks. The second is false: the same permutation is applied again in every epoch, so the orders start again after some number of epochs, and of three or more different instances there is an order that no epoch uses, for every seed and however many epochs there are.",
  "every network, data set, permutation the seed may stand for and number of epochs",
  "all seeds and all numbers of epochs",
  ["src/Model/NeuralNetwork/LinearPerceptronModel.cpp: train", "src/Model/NeuralNetwork/MultiLayerPerceptronModel.cpp: train", "src/Model/NeuralNetwork/DeepNetworkModel.cpp: train", "src/Model/NeuralNetwork/AutoEncoderModel.cpp: train", "src/InstanceList/InstanceList.cpp: shuffle"])
p("Data of one type is learned, and every instance of the type is answered",
  "Trained on a non-empty list of instances whose attributes have the same types, a classifier does not fail, and afterwards every instance with attributes of these types is answered: a plain one with a class of the training list, one with possible classes with one of them. Whatever the values are, also if scores are infinite or NaN. True for the most frequent class, random classes, nearest neighbours (k at least 1; Euclidean: all types; Mahalanobis: numbers), nearest mean (nominal and numeric columns in any mixture), naive Bayes on nominal or on numeric columns, LDA and QDA on numeric columns. False for naive Bayes on a table with both nominal and numeric columns: reading the other kind of column is undefined behaviour, in training or in prediction.",
  "every non-empty training list of one type, every instance of the type, any arithmetic (no law of numbers is used)",
  "all data sets, all values, infinities and NaN included, and all mixtures of column types",
  ["src/Model/DummyModel.cpp: predict", "src/Model/RandomModel.cpp: predict", "src/Model/NonParametric/KnnModel.cpp: predict", "src/Model/Parametric/KMeansModel.cpp: train", "src/Model/Parametric/NaiveBayesModel.cpp: train", "src/Model/Parametric/NaiveBayesModel.cpp: calculateMetric", "src/Model/Parametric/LdaModel.cpp: train", "src/Model/Parametric/QdaModel.cpp: train", "src/Model/Parametric/GaussianModel.cpp: predict"])
p("Trees cut the space of instances into boxes",
  "If two instances come to the same place of a decision tree, so does every instance in the box between them (each numeric value between the two, each other value one of the two), and it gets the same class and the same probabilities. In a trained tree every instance of the type comes to some place. A stump answers every instance in the box between two instances like one of the two, so its classes have no gaps. It does not extend to the answers of a whole tree: two instances at different places can be answered alike and one between them differently.",
  "every tree, every two instances, every instance in the box between them, any arithmetic with IEEE-754 comparisons (trained trees end somewhere: exact arithmetic)",
  "a continuum of instances for every tree",
  ["src/Model/DecisionTree/DecisionCondition.cpp: satisfy", "src/Model/DecisionTree/DecisionNode.cpp: predict", "src/Model/DecisionTree/DecisionNode.cpp: predictProbabilityDistribution", "src/Model/DecisionTree/DecisionStump.cpp: train", "src/Model/DecisionTree/DecisionTree.cpp: predict"])
p("Trees take numbers beyond those of the training data like the last ones seen",
  "Decision trees (pruned or not), random forests, bagging and stumps do not extrapolate: if a number of an instance is at least the greatest (at most the least) number its column had in training, replacing it by any other such number, for instance by that greatest (least) number itself, changes neither the class nor the probabilities answered. Several columns can be replaced at once.",
  "every training list of one type, every pruning split, every bootstrap, every attribute subset, every instance and every replacement; any arithmetic with IEEE-754 comparisons and no NaN in the training data (stumps: exact arithmetic)",
  "infinitely many numbers beyond the data, for every data set",
  ["src/Model/DecisionTree/DecisionNode.cpp: createChildrenForContinuous", "src/Model/DecisionTree/DecisionCondition.cpp: satisfy", "src/Model/DecisionTree/DecisionTree.cpp: train", "src/Model/DecisionTree/DecisionStump.cpp: train", "src/Model/Ensemble/RandomForestModel.cpp: train", "src/Model/Ensemble/BaggingModel.cpp: train"])
p("On the way to the nearest neighbour it remains the nearest",
  "With one neighbour, if the training instance nearest to a query is y, then after moving the query any part of the straight way towards y (numbers in proportion, all other attributes being those of y already) y is still the nearest, also if there are ties, and class and probabilities are the same. So the region of each training instance is star-shaped around it. With three neighbours the answer can change on the way.",
  "every training list, query, nearest instance and part of the way between 0 and 1; Euclidean distance on all column types, Mahalanobis distance with a positive definite matrix on numeric columns; exact arithmetic",
  "a continuum of positions for every data set, and ties between training instances",
  ["src/Model/NonParametric/KnnModel.cpp: nearestNeighbors", "src/Model/NonParametric/KnnModel.cpp: predict", "src/DistanceMetric/EuclidianDistance.cpp: distance", "src/DistanceMetric/MahalanobisDistance.cpp: distance"])
p("Only near training instances count for nearest neighbours",
  "If two training lists contain the same instances, in the same order, up to some distance from the query, and at least k that may vote are among these, then the k nearest neighbours of the query, its class and its probabilities are the same, whatever else the lists contain. In particular a training instance farther away than the k neighbours can be added anywhere or removed.",
  "every two training lists, every query, distance function, k and radius; any arithmetic with IEEE-754 comparisons, distances not NaN",
  "the far part of the training list is arbitrary",
  ["src/Model/NonParametric/KnnModel.cpp: nearestNeighbors", "src/Model/NonParametric/KnnModel.cpp: predict", "src/Model/NonParametric/KnnModel.cpp: predictProbability"])
p("Lower errors speak for a classifier in the statistical tests",
  "If the error rates of the first classifier are lower in some or all experiments, and those of the second higher, a test never moves towards the conclusion that the first one is worse. True for the sign test: its p-value for 'the first is not worse' does not decrease. True for the paired t test if all errors are lowered by the same amount. True for the two 5x2 t tests if in each repetition the errors of both folds are lowered by the same amount. False for the paired t test in general: lowering the error of the better classifier in one experiment can bring the statistic closer to zero.",
  "all pairs of experiments for which the tests give a result, all improvements",
  "all error rates and all numbers of experiments",
  ["src/StatisticalTest/Sign.cpp: compare", "src/StatisticalTest/Pairedt.cpp: testStatistic"])
p("A column computed from an earlier column adds nothing to a tree",
  "Decision trees (grown with or without pruning), stumps and bagged trees answer the same, with the same class probabilities, if the training instances have one more column that is computed from an earlier column: a copy, other units, a column of groups of the values of a nominal column, rounded numbers. Whatever an instance asked about has in the additional column does not matter. Classifiers that add up the columns are different: k nearest neighbours and naive Bayes count a copied column twice.",
  "all training data of one type, all positions, all ways of computing the column (any function of a nominal column, any rising or falling function of numbers, any renumbering of indices), all instances asked about",
  "all data sets and all functions; needs the concavity of the entropy for columns that merge values",
  ["src/Model/DecisionTree/DecisionNode.cpp: entropyForDiscreteAttribute", "src/Model/DecisionTree/DecisionTree.cpp: train", "src/Model/NonParametric/KnnModel.cpp: nearestNeighbors", "src/Model/Parametric/NaiveBayesModel.cpp: logLikelihoodDiscrete"])
p("Discriminant analysis does not depend on the axes",
  "Numeric data may be described along other axes: the vector v of the numbers of every instance, in training and in questions, becomes A v + b. For any invertible matrix A, linear and quadratic discriminant analysis predict the same classes, and so do k nearest neighbours with the Mahalanobis distance when its matrix is the inverse of the covariance matrix the library computes from the data so described. For axes turned, mirrored or measured in another common unit, k nearest neighbours and nearest means with the Euclidean distance answer the same. Decision trees depend on the axes, as they split along those of the description, and naive Bayes does, as it looks at each number by itself.",
  "all numeric training data, all invertible matrices and all shifts, all numbers of neighbours, all numeric instances asked about",
  "infinitely many coordinate systems for infinitely many data sets; the statement relates two trainings and two questions",
  ["src/Model/Parametric/LdaModel.cpp: calculateMetric", "src/Model/Parametric/QdaModel.cpp: calculateMetric", "src/DistanceMetric/MahalanobisDistance.cpp: distance", "src/DistanceMetric/EuclidianDistance.cpp: distance", "src/InstanceList/InstanceList.cpp: covariance"])
p("Filters that make no difference to a classifier",
  "After Normalize::convert() decision trees (grown with or without pruning), stumps, bagging, random forests, naive Bayes and linear and quadratic discriminant analysis, trained on any part of the data set, give the answers they give without the filter. After Pca::convert() with all components k nearest neighbours, nearest means, discriminant analysis and support vector machines with any kernel do. k nearest neighbours depend on normalising: the scale of the columns decides which instance is the nearest.",
  "all data sets of two instances or more without repeated objects whose columns of numbers are not constant, all parts of them used for training, all instances asked about",
  "relates two pipelines for every data set and every choice of training part",
  ["src/Filter/Normalize.cpp: convertInstance", "src/Filter/Pca.cpp: convertInstance", "src/Model/DecisionTree/DecisionTree.cpp: train", "src/Model/Parametric/LdaModel.cpp: calculateMetric", "src/Model/Parametric/NaiveBayesModel.cpp: train", "src/Model/NonParametric/KnnModel.cpp: nearestNeighbors"])
p("A support vector machine sees its data only through the kernel",
  "Change the numbers of all instances and the parameters of the kernel in any way that multiplies the value of the kernel for every two instances by a common factor (for example 1), divide the penalty by this factor, and the machine trained on the changed data gives the changed queries the answers (or errors) the original machine gives the original ones. So turning or reflecting the data around the origin makes no difference with any kernel, and enlarging them s times is made up for by dividing the penalty (linear kernel) or gamma (polynomial, radial and sigmoid kernel) by s squared; with the radial kernel the data may also be moved. The unit of a single column, however, matters.",
  "all training sets and queries of numbers, all kernels and parameters, all changes that keep the kernel values, whatever number of rounds the solver takes",
  "relates two runs of an iterative solver, with shrinking and index exchanges, for every data set and every change",
  ["src/Model/Svm/SvmModel.cpp: train", "src/Model/Svm/SvmModel.cpp: predict", "src/Model/Svm/Solver.cpp: solve", "src/Model/Svm/Kernel.cpp: function"])
p("A decision tree sees only the order of the numbers",
  "Put the numbers of every column on another scale by any strictly increasing function (logarithms, cubes, ranks). A decision tree trained without pruning, or a decision stump, then tests the same attributes at the same places, has the same leaves with the same class distributions, and answers every training instance with the same class and the same class probabilities. Bagging and random forests with the same random draws consist of trees of the same form that answer the instances of their own samples alike. Instances between the training values may be answered differently, since thresholds lie halfway between two values.",
  "all training sets of instances of the same attribute types, all strictly increasing functions for each column, all attribute subsets and bootstrap draws",
  "quantifies over all increasing functions and all data sets; a test tries one function on one data set",
  ["src/Model/DecisionTree/DecisionNode.cpp: DecisionNode", "src/Model/DecisionTree/DecisionTree.cpp: train", "src/Model/DecisionTree/DecisionStump.cpp: train", "src/Model/Ensemble/BaggingModel.cpp: train", "src/Model/Ensemble/RandomForestModel.cpp: train"])
p("A network sees its inputs only through inner products",
  "Replace every training instance and the instance asked about by instances of the same classes such that any two of them have the same inner product as before (turned axes, reordered columns, a further column of zeros; the number of columns may change). If the initial weights of the first layer give the same weighted sums and the other initial weights are the same, then the linear perceptron, the multi-layer perceptron with each activation function and the deep network give the same predictions and the same probabilities after training, with any number of epochs, learning rate and validation split, or fail with the same error.",
  "all training sets of numbers, all such replacements, all parameters and initial weights",
  "quantifies over all replacements and all training runs; a test sees one run from one set of initial weights",
  ["src/Model/NeuralNetwork/LinearPerceptronModel.cpp: train", "src/Model/NeuralNetwork/MultiLayerPerceptronModel.cpp: train", "src/Model/NeuralNetwork/DeepNetworkModel.cpp: train", "src/Model/NeuralNetwork/NeuralNetworkModel.cpp: createInputVector, calculateHidden, calculateRMinusY, predict, predictProbability"])
p("The numbering of the hidden nodes does not matter",
  "Let a multi-layer perceptron, a newly created deep network or an autoencoder start from initial weights that differ from those of another only in the numbering of the hidden nodes of each hidden layer (rows of the matrix into the layer and columns of the matrix out of it reordered alike). After training with the same data, parameters and random orders both give the same predictions and the same probabilities (the autoencoder: the same reconstruction) for every instance of numbers, or fail with the same error.",
  "all training sets of numbers, all numberings of the hidden nodes, all activation functions, parameters and initial weights",
  "quantifies over all permutations and all training runs; a test compares two runs at most",
  ["src/Model/NeuralNetwork/MultiLayerPerceptronModel.cpp: train", "src/Model/NeuralNetwork/DeepNetworkModel.cpp: train, calculateOutput", "src/Model/NeuralNetwork/AutoEncoderModel.cpp: train, predictInput, testAutoEncoder", "src/Model/NeuralNetwork/NeuralNetworkModel.cpp: calculateHidden, calculateForwardSingleHiddenLayer, calculateRMinusY, predict, predictProbability"])
p("Short descriptions tell what they describe",
  "The text of a data set (to_string with a name) determines its number of instances, of distinct classes, of attributes, of discrete and of continuous attributes; the text of a neighbour determines its class and its distance.",
  "all data sets and names, all neighbours and distances",
  "quantifies over all pairs of data sets and of distances",
  ["src/DataSet/DataSet.cpp: to_string, sampleSize, classCount, attributeCount, discreteAttributeCount, continuousAttributeCount", "src/Model/NonParametric/KnnInstance.cpp: to_string"])
p("Only the order of the distances counts for the nearest neighbours",
  "Two nearest-neighbour classifiers whose training instances have the same classes in the same order, and for whose queries the same instances are nearer, have corresponding neighbours and answer with the same class and the same probabilities; in particular an increasing function of the distance, or turning all points about the origin, changes no answer. Turning all points does not change the answers of the nearest-mean classifier either.",
  "all training lists, queries, numbers of neighbours, distance functions and increasing functions of them, all data with the same inner products",
  "quantifies over all data and all increasing functions of the distance",
  ["src/Model/NonParametric/KnnModel.cpp: nearestNeighbors, predict, predictProbability", "src/DistanceMetric/EuclidianDistance.cpp: distance", "src/Model/Parametric/KMeansModel.cpp: train, calculateMetric"])
p("Performance measures do not depend on the names of the classes",
  "When the classes are given other names, still different from each other and in any alphabetical order, the accuracy, the precision, recall and F-measure of each class and the weighted F-measure of a confusion matrix stay as they were, also in double precision; when actual and predicted class are exchanged in all classifications, accuracy and F-measures stay and precision and recall are exchanged.",
  "all histories of classifications, all lists of labels, all renamings that keep different names different; for the exchange of precision and recall all labels occur as actual and as predicted class",
  "quantifies over all histories and renamings",
  ["src/Performance/ConfusionMatrix.cpp: classify, getAccuracy, precision, recall, fMeasure, weightedFMeasure, columnSum, sumOfElements, trace"])
if __name__ == "__main__":
    for d in P:
        print(json.dumps(d, ensure_ascii=False))
