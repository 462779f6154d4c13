{"id": "C01", "title": "One-hot encoding of indexed attributes", "statement": "continuousAttributes() of a discrete-indexed attribute with index i and maximum index m is a vector of length m whose j-th entry is 1 when j = i and 0 otherwise; it therefore contains exactly one 1 when 0 <= i < m and is all zero when i is out of range (for example -1, the 'unknown value' index).", "quantifier": "every index and every non-negative maximum index", "why_tests_cant": "the vector length is unbounded and the out-of-range behaviour has infinitely many cases", "anchors": ["src/Attribute/DiscreteIndexedAttribute.cpp: continuousAttributes, continuousAttributeSize"]}
{"id": "C02", "title": "Continuous view of an instance has the advertised length and order", "statement": "For any instance, continuousAttributeSize() equals the length of continuousAttributes() and of toVector(), both vectors are equal, and they are the concatenation, in attribute order, of the attributes' own encodings (continuous value -> itself, indexed -> one-hot, plain discrete and binary -> nothing).", "quantifier": "every instance with any mix of attribute kinds whose indexed attributes have non-negative maximum index", "why_tests_cant": "arbitrary number and interleaving of attribute kinds", "anchors": ["src/Instance/Instance.cpp: continuousAttributeSize, continuousAttributes, toVector", "src/Attribute/*.cpp"]}
{"id": "C03", "title": "Removing and adding attributes edits exactly the requested position", "statement": "addAttribute appends at the end; removeAttribute(i) for 0 <= i < attributeSize() deletes position i and keeps the order of the others; for any other i the call is undefined behaviour.", "quantifier": "every instance, every index, every sequence of edits", "why_tests_cant": "needs all indices of all attribute lists", "anchors": ["src/Instance/Instance.cpp: addAttribute, removeAttribute, removeAllAttributes"]}
{"id": "C04", "title": "Feature projection of an instance", "statement": "getSubSetOfFeatures(S) on an instance succeeds exactly when every index in S is a valid attribute position and then yields the attributes at those positions in the order S lists them, with the same class label; otherwise it throws out_of_range.", "quantifier": "every instance and every feature subset (any order, duplicates allowed)", "why_tests_cant": "quantifies over all index lists", "anchors": ["src/Instance/Instance.cpp: getSubSetOfFeatures", "src/FeatureSelection/FeatureSubSet.cpp"]}
{"id": "C05", "title": "Composite instances keep their possible labels under feature projection", "statement": "Projecting a composite instance on a feature subset keeps it composite with the same possible class labels.", "quantifier": "every composite instance and every valid feature subset", "why_tests_cant": "must hold for all label lists and subsets", "anchors": ["src/Instance/Instance.cpp: getSubSetOfFeatures", "src/Instance/CompositeInstance.cpp"]}
{"id": "C06", "title": "Actual class of a composite instance is among its possible classes", "statement": "For a composite instance built from a label list, getClassLabel() is a member of getPossibleClassLabels().", "quantifier": "every non-empty label list", "why_tests_cant": "ranges over all label lists", "anchors": ["src/Instance/CompositeInstance.cpp: CompositeInstance(const vector<string>&)"]}
{"id": "C07", "title": "Distinct class labels", "statement": "getDistinctClassLabels() lists each class label occurring in the list exactly once, in order of first occurrence, and lists nothing else.", "quantifier": "every instance list", "why_tests_cant": "arbitrary list length and label multiplicities", "anchors": ["src/InstanceList/InstanceList.cpp: getDistinctClassLabels"]}
{"id": "C08", "title": "Union of possible class labels", "statement": "getUnionOfPossibleClassLabels() lists each label that is possible for some instance exactly once, in first-occurrence order; for lists without composite instances it equals getDistinctClassLabels().", "quantifier": "every instance list with any mixture of plain and composite instances", "why_tests_cant": "arbitrary lists and label sets", "anchors": ["src/InstanceList/InstanceList.cpp: getUnionOfPossibleClassLabels"]}
{"id": "C09", "title": "Attribute value list", "statement": "getAttributeValueList(i) lists each value occurring at discrete position i exactly once, in first-occurrence order.", "quantifier": "every instance list whose attribute i is discrete-valued throughout", "why_tests_cant": "arbitrary list length and values", "anchors": ["src/InstanceList/InstanceList.cpp: getAttributeValueList"]}
{"id": "C10", "title": "Class distribution counts", "statement": "classDistribution() assigns to every label exactly the number of instances carrying it, its sum is the list size, and its number of entries is the number of distinct labels.", "quantifier": "every instance list", "why_tests_cant": "arbitrary length and label multiplicities", "anchors": ["src/InstanceList/InstanceList.cpp: classDistribution", "src/DataSet/DataSet.cpp: classCount"]}
{"id": "C11", "title": "Attribute/class contingency table", "statement": "attributeClassDistribution(i) returns one distribution per distinct value of attribute i, in first-occurrence order, and the v-th one counts for each label exactly the instances having that value and label; summing the tables over all values gives the class distribution.", "quantifier": "every instance list with a discrete attribute i", "why_tests_cant": "arbitrary data", "anchors": ["src/InstanceList/InstanceList.cpp: attributeClassDistribution"]}
{"id": "C12", "title": "Indexed attribute/class distribution", "statement": "discreteIndexedAttributeClassDistribution(i, v) counts for each label exactly the instances whose indexed attribute i has index v.", "quantifier": "every instance list with an indexed attribute i, every v", "why_tests_cant": "arbitrary data", "anchors": ["src/InstanceList/InstanceList.cpp: discreteIndexedAttributeClassDistribution"]}
{"id": "C13", "title": "Sorting by a continuous attribute is a stable sort", "statement": "sort(i) permutes the list so that the values of attribute i are non-decreasing and instances with equal value keep their relative order.", "quantifier": "every instance list whose attribute i is continuous and not NaN throughout", "why_tests_cant": "all permutations and all tie patterns", "anchors": ["src/InstanceList/InstanceList.cpp: sort(int), InstanceComparator"]}
{"id": "C14", "title": "Sorting by class groups classes contiguously", "statement": "sort() permutes the list so that labels are lexicographically non-decreasing, equal labels keep their relative order, and hence the instances of each class form one contiguous block, the blocks appearing in label order with the sizes given by classDistribution().", "quantifier": "every instance list", "why_tests_cant": "all permutations and all tie patterns", "anchors": ["src/InstanceList/InstanceList.cpp: sort(), InstanceClassComparator", "src/Model/Svm/SvmModel.cpp: groupClasses"]}
{"id": "C15", "title": "Shuffling loses and invents nothing", "statement": "shuffle(seed) leaves the list a permutation of itself, so class distribution, size and the multiset of instances are unchanged whatever the random engine produces.", "quantifier": "every instance list and every behaviour of the random engine", "why_tests_cant": "all random schedules", "anchors": ["src/InstanceList/InstanceList.cpp: shuffle"]}
{"id": "C16", "title": "Attribute average is the mean / the mode", "statement": "average() gives for a continuous attribute the arithmetic mean of the column (so deviations from it sum to zero, and it lies between the smallest and largest value) and for a discrete attribute a value of maximal frequency, the lexicographically smallest such value.", "quantifier": "every non-empty instance list with homogeneous columns (exact arithmetic for the mean)", "why_tests_cant": "arbitrary data", "anchors": ["src/InstanceList/InstanceList.cpp: attributeAverage, average", "src/Model/Model.cpp: getMaximum"]}
{"id": "C17", "title": "Sample standard deviation", "statement": "standardDeviation() of a continuous column is the square root of the sum of squared deviations divided by n-1; it is non-negative, zero exactly when all values are equal, and unaffected by adding a constant to the column.", "quantifier": "every list of at least two instances (exact arithmetic)", "why_tests_cant": "arbitrary data", "anchors": ["src/InstanceList/InstanceList.cpp: attributeStandardDeviation, standardDeviation"]}
{"id": "C18", "title": "Covariance matrix is symmetric positive semidefinite", "statement": "covariance(average) is symmetric, v^T C v >= 0 for every vector v, and its diagonal holds the column variances when the average vector is the column mean.", "quantifier": "every list of at least two equal-width instances, every average vector, every v (exact arithmetic)", "why_tests_cant": "quantifies over all vectors and all data", "anchors": ["src/InstanceList/InstanceList.cpp: covariance"]}
{"id": "C19", "title": "Average of an indexed column is a relative-frequency vector", "statement": "continuousAttributeAverage of an indexed column has length maxIndex, its j-th entry is the fraction of instances with index j, all entries lie in [0,1] and they sum to 1.", "quantifier": "every non-empty list whose indexed attribute has 0 <= index < maxIndex throughout (an index of -1 is undefined behaviour)", "why_tests_cant": "arbitrary data", "anchors": ["src/InstanceList/InstanceList.cpp: continuousAttributeAverage(int)"]}
{"id": "C20", "title": "Partition by class", "statement": "Partition(list) has one part per distinct class label in first-occurrence order; part k contains exactly the instances with the k-th label, in their original order, none is empty, and together they are a rearrangement of the list.", "quantifier": "every instance list", "why_tests_cant": "arbitrary data", "anchors": ["src/InstanceList/Partition.cpp: Partition(const InstanceList&)", "src/InstanceList/InstanceListOfSameClass.cpp"]}
{"id": "C21", "title": "Partition by discrete attribute", "statement": "Partition(list, i) has one non-empty part per distinct value of attribute i in first-occurrence order, holding exactly the instances with that value in original order; together they are a rearrangement of the list.", "quantifier": "every list with a discrete attribute i", "why_tests_cant": "arbitrary data", "anchors": ["src/InstanceList/Partition.cpp: Partition(const InstanceList&, int)"]}
{"id": "C22", "title": "Partition by indexed value", "statement": "Partition(list, i, v) has exactly two parts: the instances whose indexed attribute i equals v and the others, each in original order, together a rearrangement of the list.", "quantifier": "every list with an indexed attribute i, every v", "why_tests_cant": "arbitrary data", "anchors": ["src/InstanceList/Partition.cpp: Partition(const InstanceList&, int, int)"]}
{"id": "C23", "title": "Partition by threshold", "statement": "Partition(list, i, t) has exactly two parts: the instances with value <= t and the rest (including NaN values), each in original order; together they are a rearrangement of the list.", "quantifier": "every list with a continuous attribute i, every threshold, including NaN on either side", "why_tests_cant": "arbitrary data and thresholds", "anchors": ["src/InstanceList/Partition.cpp: Partition(const InstanceList&, int, double)"]}
{"id": "C24", "title": "Random split sizes", "statement": "Partition(list, r, seed, false) has exactly two parts which together are a rearrangement of the list; for 0 <= r <= 1 the first part has exactly ceil(r*n) instances; the list passed in is itself permuted.", "quantifier": "every list, ratio and random engine behaviour (exact arithmetic)", "why_tests_cant": "all random schedules and sizes", "anchors": ["src/InstanceList/Partition.cpp: Partition(InstanceList&, double, int, bool)"]}
{"id": "C25", "title": "Stratified split sizes", "statement": "Partition(list, r, seed, true) has exactly two parts which together are a rearrangement of the list, and for 0 <= r <= 1 the first part contains exactly ceil(r*n_c) instances of every class c occurring n_c times; the caller's list is left unchanged.", "quantifier": "every list, ratio and random permutation (exact arithmetic)", "why_tests_cant": "all random schedules, sizes and class mixes", "anchors": ["src/InstanceList/Partition.cpp: Partition(InstanceList&, double, int, bool)"]}
{"id": "C26", "title": "Data set admits only instances of its definition", "statement": "After any sequence of addInstance / addInstanceList calls that do not throw, every instance of the data set has exactly the attribute types of getDataDefinition(), position by position and with the same length.", "quantifier": "every history of additions to an initially empty data set", "why_tests_cant": "all histories of calls", "anchors": ["src/DataSet/DataSet.cpp: addInstance, checkDefinition, setDefinition"]}
{"id": "C27", "title": "The first instance fixes the definition for good", "statement": "Once a data set has a non-empty definition no sequence of additions changes it, each addition either appends the instance at the end or leaves the data set unchanged, and an instance is appended whenever its attribute types equal the definition.", "quantifier": "every history of additions", "why_tests_cant": "all histories of calls", "anchors": ["src/DataSet/DataSet.cpp: addInstance, checkDefinition"]}
{"id": "C28", "title": "Attribute type counts", "statement": "discreteAttributeCount() + continuousAttributeCount() + (number of DISCRETE_INDEXED types) = attributeCount(), where the discrete count covers DISCRETE and BINARY.", "quantifier": "every data definition", "why_tests_cant": "all type lists", "anchors": ["src/DataSet/DataDefinition.cpp: attributeCount, discreteAttributeCount, continuousAttributeCount"]}
{"id": "C29", "title": "Value index lookup inverts the value list", "statement": "featureValueIndex(i, v) is the first position of v in the value list of attribute i, is in [0, numberOfValues(i)) exactly when v is listed, and is -1 otherwise; so a file row read with an indexed type is one-hot encoded exactly when the value is known.", "quantifier": "every definition with value lists, every attribute and value", "why_tests_cant": "all value lists", "anchors": ["src/DataSet/DataDefinition.cpp: featureValueIndex, numberOfValues", "src/InstanceList/InstanceList.cpp: file constructor"]}
{"id": "C30", "title": "Feature projection of a data set", "statement": "getSubSetOfFeatures(S) of a data set whose instances conform to the definition yields a data set with the projected definition and with exactly the projected instances, in order and none dropped.", "quantifier": "every conforming data set and every valid non-empty subset", "why_tests_cant": "all data sets and subsets", "anchors": ["src/DataSet/DataSet.cpp: getSubSetOfFeatures", "src/Experiment/Experiment.cpp: featureSelectedExperiment"]}
{"id": "C31", "title": "Text rows written are read back", "statement": "Writing a data set with writeToFile and reading it back with the (definition, separator, file) constructor restores the same instances.", "quantifier": "every data set of plain instances with separator-free non-empty values and labels", "why_tests_cant": "all data sets; ends of file and number formatting are boundary cases", "anchors": ["src/DataSet/DataSet.cpp: writeToFile", "src/InstanceList/InstanceList.cpp: InstanceList(definition, separator, fileName)", "src/Instance/Instance.cpp: to_string"]}
{"id": "C32", "title": "Rows with the wrong number of columns never enter the list", "statement": "Reading a file with a definition keeps exactly the lines that are terminated by a newline and have attributeCount()+1 columns, in file order; every instance produced has the definition's attribute types.", "quantifier": "every file content and definition", "why_tests_cant": "all files", "anchors": ["src/InstanceList/InstanceList.cpp: InstanceList(definition, separator, fileName)"]}
{"id": "C33", "title": "Confusion matrix accounting", "statement": "After any sequence of classify calls the cell (a, p) holds the number of calls with actual class a and predicted class p; the sum of all elements is the number of calls, the trace is the number of calls with a = p, and a column sum is the number of calls predicting that class.", "quantifier": "every sequence of classifications", "why_tests_cant": "all histories", "anchors": ["src/Performance/ConfusionMatrix.cpp: classify, sumOfElements, trace, columnSum"]}
{"id": "C34", "title": "Merging confusion matrices is pooling the classifications", "statement": "addConfusionMatrix makes every cell the sum of the two cells; the merge of the matrices of two call histories equals, cell by cell, the matrix of the concatenated history, and so its accuracy is the pooled accuracy.", "quantifier": "every pair of call histories", "why_tests_cant": "all histories", "anchors": ["src/Performance/ConfusionMatrix.cpp: addConfusionMatrix"]}
{"id": "C35", "title": "Accuracy is the fraction of correct classifications", "statement": "getAccuracy() of a non-empty history is (number of correct calls)/(number of calls), lies in [0,1], is 1 exactly when all are correct and 0 exactly when none is; on an empty history it is 0/0.", "quantifier": "every history of classifications (exact arithmetic)", "why_tests_cant": "all histories", "anchors": ["src/Performance/ConfusionMatrix.cpp: getAccuracy"]}
{"id": "C36", "title": "Precision, recall and F-measure", "statement": "For a class that occurs as an actual class: recall is (correct of the class)/(occurrences of the class), precision is (correct of the class)/(predictions of the class), both in [0,1] where defined, and the F-measure is their harmonic mean 2PR/(P+R).", "quantifier": "every history of classifications and every listed class label that occurs as actual class (exact arithmetic)", "why_tests_cant": "all histories", "anchors": ["src/Performance/ConfusionMatrix.cpp: precision, recall, fMeasure"]}
{"id": "C37", "title": "Per-class measures are defined for every class label", "statement": "precision(), recall(), fMeasure() and weightedFMeasure() give a defined value for every class label the matrix was created with.", "quantifier": "every class-label list and every history", "why_tests_cant": "all histories; needs the reads of never-written memory to be tracked", "anchors": ["src/Performance/ConfusionMatrix.cpp: precision, recall, fMeasure, weightedFMeasure", "src/Model/Model.cpp: test"]}
{"id": "C38", "title": "Error rate and accuracy are complementary", "statement": "A ClassificationPerformance built from an accuracy, a DetailedClassificationPerformance, and the mean classification performance of any experiment all satisfy errorRate + accuracy = 1.", "quantifier": "every accuracy, confusion matrix and list of performances (exact arithmetic)", "why_tests_cant": "all values", "anchors": ["src/Performance/ClassificationPerformance.cpp", "src/Performance/DetailedClassificationPerformance.cpp", "src/Performance/ExperimentPerformance.cpp: meanClassificationPerformance"]}
{"id": "C39", "title": "Experiment results are recorded in order", "statement": "After any sequence of add calls, numberOfExperiments() is the number of calls and getErrorRate(i) is the error rate of the i-th added performance (out_of_range outside); getAccuracy(i) returns the accuracy of a classification performance and throws for any other.", "quantifier": "every history of add calls", "why_tests_cant": "all histories", "anchors": ["src/Performance/ExperimentPerformance.cpp: add, numberOfExperiments, getErrorRate, getAccuracy"]}
{"id": "C40", "title": "Mean and standard deviation of an experiment", "statement": "meanPerformance() has the arithmetic mean of the error rates and standardDeviationPerformance() the sample (n-1) standard deviation; both are unchanged by reordering the results.", "quantifier": "every non-empty (two or more for the deviation) list of results (exact arithmetic)", "why_tests_cant": "all result lists and orders", "anchors": ["src/Performance/ExperimentPerformance.cpp: meanPerformance, standardDeviationPerformance"]}
{"id": "C41", "title": "Summaries refuse mixed experiments", "statement": "meanClassificationPerformance(), meanDetailedPerformance() and standardDeviationClassificationPerformance() return a null pointer, rather than misinterpreting memory, whenever the stored performances are not all of the required kind.", "quantifier": "every history of add calls with any mixture of performance kinds", "why_tests_cant": "all histories and mixtures", "anchors": ["src/Performance/ExperimentPerformance.cpp: add, meanClassificationPerformance, meanDetailedPerformance"]}
{"id": "C42", "title": "Comparing experiments is a strict order", "statement": "isBetter compares mean accuracies: it is irreflexive, asymmetric and transitive, and neither of two experiments is better exactly when their mean accuracies are equal.", "quantifier": "every triple of non-empty classification experiments", "why_tests_cant": "all experiments", "anchors": ["src/Performance/ExperimentPerformance.cpp: isBetter"]}
{"id": "C43", "title": "Testing a classifier counts its correct predictions", "statement": "Model::test on a test set classifies every instance once; the resulting accuracy is the fraction of instances whose predicted label equals the actual label, and ValidatedModel::testClassifier gives the same accuracy.", "quantifier": "every classifier with a deterministic predict and every non-empty test set (exact arithmetic)", "why_tests_cant": "all classifiers and test sets", "anchors": ["src/Model/Model.cpp: test", "src/Model/ValidatedModel.cpp: testClassifier"]}
{"id": "C44", "title": "Majority label", "statement": "getMaximum(labels) returns a label of maximal multiplicity, namely the lexicographically smallest such label, and the empty string for an empty list.", "quantifier": "every list of labels", "why_tests_cant": "all multisets and tie patterns", "anchors": ["src/Model/Model.cpp: getMaximum"]}
{"id": "C45", "title": "Discrete features are rejected up front", "statement": "LDA, QDA, SVM, linear/multilayer perceptron, deep network and autoencoder training throw DiscreteFeaturesNotAllowed exactly when the first training instance has a plain discrete attribute; indexed and binary attributes pass.", "quantifier": "every non-empty training list", "why_tests_cant": "all attribute mixes", "anchors": ["src/Model/Model.cpp: discreteCheck", "src/Model/Parametric/LdaModel.cpp, QdaModel.cpp: train", "src/Model/Svm/SvmModel.cpp: train", "src/Model/NeuralNetwork/NeuralNetworkModel.cpp: initialize"]}
{"id": "C46", "title": "Dummy classifier predicts the majority class", "statement": "DummyModel predicts the most frequent training label (smallest in lexicographic order on ties) for plain instances, and for composite instances the first possible label with maximal training frequency.", "quantifier": "every training list and test instance", "why_tests_cant": "all training sets and tie patterns", "anchors": ["src/Model/DummyModel.cpp: train, predict"]}
{"id": "C47", "title": "Dummy and random class probabilities", "statement": "predictProbability of the dummy classifier gives every training label its relative frequency; that of the random classifier gives each of its n labels 1/n; both are non-negative and sum to 1.", "quantifier": "every non-empty training list (exact arithmetic)", "why_tests_cant": "all training sets", "anchors": ["src/Model/DummyModel.cpp: predictProbability", "src/Model/RandomModel.cpp: predictProbability"]}
{"id": "C48", "title": "Random classifier stays within the allowed labels", "statement": "RandomModel predicts one of its class labels (plain instance) or one of the instance's possible labels (composite), for every value the generator returns.", "quantifier": "every non-empty label list and every random number", "why_tests_cant": "all generator behaviours", "anchors": ["src/Model/RandomModel.cpp: predict, train"]}
{"id": "C49", "title": "Nearest neighbours are nearest", "statement": "KnnModel::nearestNeighbors returns min(k, m) training instances out of the m eligible ones (all for a plain query, those with a possible label for a composite one), no eligible instance left out is nearer than a returned one, and ties are resolved by training order.", "quantifier": "every training list, metric, k >= 0 and query with no NaN distance", "why_tests_cant": "all data sets, metrics and tie patterns", "anchors": ["src/Model/NonParametric/KnnModel.cpp: nearestNeighbors"]}
{"id": "C50", "title": "k-NN prediction is a vote of the neighbours", "statement": "KnnModel::predict returns a label carried by the largest number of nearest neighbours, smallest on ties; for a composite query the result is always one of its possible labels.", "quantifier": "every training list, metric, k >= 0 and query with non-empty possible labels", "why_tests_cant": "all data sets", "anchors": ["src/Model/NonParametric/KnnModel.cpp: predict"]}
{"id": "C51", "title": "Squared Euclidean distance", "statement": "EuclidianDistance on instances of the same type is symmetric, non-negative and zero exactly when all continuous and plain discrete attributes agree.", "quantifier": "every pair of instances with equal attribute kinds (exact arithmetic)", "why_tests_cant": "all instances", "anchors": ["src/DistanceMetric/EuclidianDistance.cpp: distance"]}
{"id": "C52", "title": "Gaussian-family prediction maximises the discriminant", "statement": "KMeans/LDA/QDA/naive Bayes predict a label of the prior distribution (or, for composite instances, a possible label occurring in training) whose metric is at least the metric of every other candidate; the first such candidate wins.", "quantifier": "every training result, metric function with values above -DBL_MAX, and instance", "why_tests_cant": "all models and inputs", "anchors": ["src/Model/Parametric/GaussianModel.cpp: predict"]}
{"id": "C53", "title": "Nearest-mean classification", "statement": "KMeansModel, trained on a list, assigns a plain instance to a class whose mean instance has minimal distance among all class means.", "quantifier": "every training list and metric, every test instance", "why_tests_cant": "all data", "anchors": ["src/Model/Parametric/KMeansModel.cpp: train, calculateMetric", "src/Model/Parametric/GaussianModel.cpp: predict"]}
{"id": "C54", "title": "Naive Bayes with discrete attributes uses Laplace-smoothed counts", "statement": "The discrete naive Bayes score of class c is log(n_c/n) plus, per attribute, log((count of the value among class c + 1)/(n_c + number of distinct values in class c + 1)); every factor is in (0,1), so an unseen value never yields an infinite score.", "quantifier": "every training list with discrete attributes, every instance (exact arithmetic)", "why_tests_cant": "all data and unseen values", "anchors": ["src/Model/Parametric/NaiveBayesModel.cpp: trainDiscreteVersion, logLikelihoodDiscrete"]}
{"id": "C55", "title": "Retraining replaces the earlier model", "statement": "Calling train on an already trained classifier gives exactly the classifier that a fresh object would have learned from the second training set.", "quantifier": "every classifier, every history of training calls", "why_tests_cant": "all histories; K-fold runs rely on it because they reuse one model object", "anchors": ["src/Model/Parametric/LdaModel.cpp, QdaModel.cpp, NaiveBayesModel.cpp: train", "src/Model/Ensemble/*.cpp: train", "src/Model/Svm/SvmModel.cpp: train", "src/Model/NeuralNetwork/DeepNetworkModel.cpp: allocateWeights", "src/Model/DummyModel.cpp, NonParametric/KnnModel.cpp, Parametric/KMeansModel.cpp, DecisionTree/*.cpp: train"]}
{"id": "C56", "title": "Decision tree growth terminates", "statement": "Growing a decision tree from a non-empty list always terminates without error: every child of a split node receives a non-empty, strictly smaller part of the data.", "quantifier": "every non-empty homogeneous training list (exact arithmetic, entropies of the class counts)", "why_tests_cant": "all data sets; recursion depth unbounded", "anchors": ["src/Model/DecisionTree/DecisionNode.cpp: DecisionNode(InstanceList, ...)"]}
{"id": "C57", "title": "Training data is routed consistently with the split", "statement": "For every split made while growing a tree, an instance of the node's data satisfies the condition of the child whose data contains it and, for a plain two-way or discrete split, the first child whose condition it satisfies is that child; so every training instance reaches the leaf it helped to build.", "quantifier": "every training list, every node of the grown tree", "why_tests_cant": "all trees and instances", "anchors": ["src/Model/DecisionTree/DecisionNode.cpp: createChildrenFor*, predict", "src/Model/DecisionTree/DecisionCondition.cpp: satisfy", "src/InstanceList/Partition.cpp"]}
{"id": "C58", "title": "Tree predictions are training labels", "statement": "A grown tree predicts, for any plain instance of the right type, a class label that occurs in the training list.", "quantifier": "every non-empty training list and every instance", "why_tests_cant": "all trees and inputs", "anchors": ["src/Model/DecisionTree/DecisionNode.cpp: predict"]}
{"id": "C59", "title": "Growing a tree never hurts training accuracy", "statement": "The number of training instances a grown tree classifies correctly is at least the number the majority label alone classifies correctly.", "quantifier": "every non-empty training list", "why_tests_cant": "all data sets, unbounded recursion", "anchors": ["src/Model/DecisionTree/DecisionNode.cpp", "src/Model/DecisionTree/DecisionTree.cpp: train"]}
{"id": "C60", "title": "A decision stump splits at most once", "statement": "The tree trained by DecisionStump is either a leaf or a root all of whose children are leaves.", "quantifier": "every training list", "why_tests_cant": "all data sets", "anchors": ["src/Model/DecisionTree/DecisionStump.cpp: train", "src/Model/DecisionTree/DecisionNode.cpp"]}
{"id": "C61", "title": "Pruning never lowers accuracy on the pruning set", "statement": "After prune(pruneSet) the accuracy on pruneSet is at least what it was before, and each single pruning decision is kept only if it does not lower it.", "quantifier": "every tree and every non-empty pruning set (exact comparison of counts)", "why_tests_cant": "all trees, unbounded depth", "anchors": ["src/Model/DecisionTree/DecisionTree.cpp: prune, pruneNode"]}
{"id": "C62", "title": "Pruning only cuts", "statement": "prune never changes a node's condition, label, distribution or children, and never turns a leaf into an inner node; the pruned tree is the original with some inner nodes marked as leaves.", "quantifier": "every tree and pruning set", "why_tests_cant": "all trees", "anchors": ["src/Model/DecisionTree/DecisionTree.cpp: pruneNode"]}
{"id": "C63", "title": "Composite instances get one of their possible labels from a tree", "statement": "DecisionTree::predict on a composite instance with a non-empty list of non-empty possible labels returns one of these labels.", "quantifier": "every tree and composite instance", "why_tests_cant": "all trees and label lists", "anchors": ["src/Model/DecisionTree/DecisionNode.cpp: predict", "src/Model/DecisionTree/DecisionTree.cpp: predict"]}
{"id": "C64", "title": "Ensemble prediction is a majority vote", "statement": "A bagging or random-forest model predicts the label predicted by the largest number of its trees (smallest on ties), and predictProbability gives each label its share of the votes, summing to 1.", "quantifier": "every non-empty forest and instance", "why_tests_cant": "all forests", "anchors": ["src/Model/Ensemble/TreeEnsembleModel.cpp: predict, predictProbability"]}
{"id": "C65", "title": "Training an ensemble builds the requested number of trees", "statement": "After train with ensemble size B the model consists of B trees, the i-th grown on the i-th bootstrap sample of the training list, each sample consisting of training instances only.", "quantifier": "every training list, ensemble size and bootstrap outcome, fresh model", "why_tests_cant": "all sizes and random schedules", "anchors": ["src/Model/Ensemble/BaggingModel.cpp, RandomForestModel.cpp: train"]}
{"id": "C66", "title": "Sparse dot product equals dense dot product", "statement": "The NodeList of a vector stores exactly its non-zero entries in increasing index order, and the dot product of two NodeLists equals the dot product of the dense vectors.", "quantifier": "every pair of vectors of any (also different) lengths (exact arithmetic)", "why_tests_cant": "all vectors and zero patterns", "anchors": ["src/Model/Svm/NodeList.cpp: NodeList(values), dot"]}
{"id": "C67", "title": "Kernel functions are symmetric and consistent", "statement": "Every kernel is symmetric, the kernel value used while training (index based, with cached squares) equals the one used while predicting (NodeList based), also after any sequence of index swaps, and the RBF kernel is exp(-gamma*||x-y||^2), in (0,1] for gamma >= 0.", "quantifier": "every kernel type, parameters, data and swap history (exact arithmetic)", "why_tests_cant": "all data and histories", "anchors": ["src/Model/Svm/Kernel.cpp: function (both), rbf, swapIndex"]}
{"id": "C68", "title": "SMO keeps the dual feasible", "statement": "In every state the solver reaches, each multiplier lies in [0, C] and the sum of y_i*alpha_i is 0.", "quantifier": "every problem with labels +1/-1, C > 0, any kernel, every number of optimisation and shrinking steps, provided no step divides by zero (exact arithmetic)", "why_tests_cant": "unboundedly many solver steps", "anchors": ["src/Model/Svm/Solver.cpp: solve, doShrinking, swapIndex"]}
{"id": "C69", "title": "SMO optimisation stops only at an approximately optimal pair", "statement": "selectWorkingSet returns true exactly when no pair of multipliers that can still move violates optimality by 0.001 or more, and when it returns false both chosen indices have been set and can move in their direction.", "quantifier": "every solver state", "why_tests_cant": "all states", "anchors": ["src/Model/Svm/Solver.cpp: selectWorkingSet"]}
{"id": "C70", "title": "Solver bookkeeping survives index swaps", "statement": "After any sequence of swapIndex calls the arrays y, alpha, b, G, the status array and the active-set permutation describe the same problem with renumbered rows.", "quantifier": "every state and swap history", "why_tests_cant": "all histories", "anchors": ["src/Model/Svm/Solver.cpp: swapIndex", "src/Model/Svm/QMatrix.cpp: swapIndex"]}
{"id": "C71", "title": "Solution is reported in the original order", "statement": "The multiplier reported for training instance k is the one the solver computed for that instance, also when shrinking has permuted the problem.", "quantifier": "every final solver state", "why_tests_cant": "all permutations reachable by shrinking", "anchors": ["src/Model/Svm/Solver.cpp: solve (final loop)"]}
{"id": "C72", "title": "One-vs-one voting", "statement": "SvmModel::predict casts exactly n(n-1)/2 votes, one per pair of classes, and returns the first class (in label order) with the maximal number of votes.", "quantifier": "every number of classes and every decision-value vector", "why_tests_cant": "all class counts", "anchors": ["src/Model/Svm/SvmModel.cpp: predict"]}
{"id": "C73", "title": "SVM class blocks match the sorted data", "statement": "After sort(), the block of training instances [start_i, start_i + count_i) computed for class i contains exactly the instances of the i-th class label, for every class.", "quantifier": "every training list", "why_tests_cant": "all class mixes", "anchors": ["src/Model/Svm/SvmModel.cpp: train, groupClasses", "src/InstanceList/InstanceList.cpp: sort()"]}
{"id": "C74", "title": "Softmax output is a probability vector", "statement": "normalizeOutput yields positive values summing to 1, preserving the order of the inputs and unchanged when a constant is added to all inputs.", "quantifier": "every non-empty real vector (exact arithmetic)", "why_tests_cant": "all vectors", "anchors": ["src/Model/NeuralNetwork/NeuralNetworkModel.cpp: normalizeOutput"]}
{"id": "C75", "title": "Output error sums to zero", "statement": "The error vector r - y used by the perceptron learners has components summing to 0, its component is positive only for the actual class, and each component lies in (-1, 1).", "quantifier": "every training instance with a known class, weights and inputs (exact arithmetic)", "why_tests_cant": "all weights and inputs", "anchors": ["src/Model/NeuralNetwork/NeuralNetworkModel.cpp: calculateRMinusY"]}
{"id": "C76", "title": "Network prediction respects the possible labels", "statement": "For a composite instance with at least one possible label, the predicted label is a possible label; among the possible labels known to the network it has the largest output.", "quantifier": "every output vector with values above -DBL_MAX and every label list", "why_tests_cant": "all outputs and label lists", "anchors": ["src/Model/NeuralNetwork/NeuralNetworkModel.cpp: predictWithCompositeInstance, predict"]}
{"id": "C77", "title": "Training keeps the best epoch", "statement": "The weights kept by the perceptron/network training loop are those of an epoch whose validation accuracy is maximal among all epochs (the earliest such), or the initial weights when no epoch has accuracy above 0.", "quantifier": "every number of epochs and every sequence of weight updates", "why_tests_cant": "all training histories", "anchors": ["src/Model/NeuralNetwork/LinearPerceptronModel.cpp, MultiLayerPerceptronModel.cpp, DeepNetworkModel.cpp: train"]}
{"id": "C78", "title": "Autoencoder keeps the best epoch", "statement": "The weights kept by the autoencoder training loop are those of the earliest epoch with minimal validation error, so the reported error never exceeds that of any epoch.", "quantifier": "every number of epochs and update sequence", "why_tests_cant": "all training histories", "anchors": ["src/Model/NeuralNetwork/AutoEncoderModel.cpp: train"]}
{"id": "C79", "title": "Soft decision tree output is a convex combination", "statement": "The output of a soft decision tree node is a convex combination of its leaves' output vectors: leaf weights are positive and sum to 1, so every component lies between the smallest and largest leaf component.", "quantifier": "every tree of any depth and every instance (exact arithmetic)", "why_tests_cant": "unbounded depth", "anchors": ["src/Model/DecisionTree/SoftDecisionNode.cpp: calculateOutput"]}
{"id": "C80", "title": "Feature selection candidates", "statement": "The forward operator proposes exactly the current subset extended by one missing feature of [0,n), the backward operator exactly the current subset with one position removed, the floating operator both; duplicate-free subsets of [0,n) stay duplicate-free subsets of [0,n).", "quantifier": "every subset and number of features", "why_tests_cant": "all subsets", "anchors": ["src/FeatureSelection/SubSetSelection.cpp: forward, backward", "src/FeatureSelection/*Selection.cpp: operatorToModify"]}
{"id": "C81", "title": "Feature selection terminates", "statement": "execute terminates for forward, backward and floating selection, whatever the experiment results are.", "quantifier": "every number of features and every performance function, even a non-deterministic one", "why_tests_cant": "unbounded number of rounds", "anchors": ["src/FeatureSelection/SubSetSelection.cpp: execute"]}
{"id": "C82", "title": "Feature selection returns a local optimum it has evaluated", "statement": "The returned subset is the initial subset or an evaluated candidate, its performance is at least that of every subset evaluated, and no single-step candidate of it is better.", "quantifier": "every deterministic performance function and number of features", "why_tests_cant": "all search histories", "anchors": ["src/FeatureSelection/SubSetSelection.cpp: execute"]}
{"id": "C83", "title": "No subset is evaluated twice", "statement": "During one run of execute no feature subset (as an ordered list) is evaluated twice and the empty subset is never evaluated.", "quantifier": "every performance function and number of features", "why_tests_cant": "all search histories", "anchors": ["src/FeatureSelection/SubSetSelection.cpp: execute"]}
{"id": "C84", "title": "K-fold run", "statement": "KFoldRun yields exactly K results, the i-th obtained by training on fold i's training part and testing on its test part; the K test parts together are a rearrangement of the data set, so each instance is tested exactly once and never trained on in the same fold.", "quantifier": "every data set, K >= 1, model and random order (given the cross-validation library's fold contract)", "why_tests_cant": "all sizes, models and random schedules", "anchors": ["src/Experiment/KFoldRun.cpp: execute, runExperiment"]}
{"id": "C85", "title": "Separate-test runs never train on test data", "statement": "In KFoldRunSeparateTest, StratifiedKFoldRunSeparateTest and their MxK versions, the held-out test set and the data used for training folds are complementary parts of the data set, and all results are measured on that one test set of ceil(n/4) instances (per class in the stratified versions).", "quantifier": "every data set, K, M, model and random order", "why_tests_cant": "all sizes and random schedules", "anchors": ["src/Experiment/KFoldRunSeparateTest.cpp, StratifiedKFoldRunSeparateTest.cpp, MxKFoldRunSeparateTest.cpp, StratifiedMxKFoldRunSeparateTest.cpp"]}
{"id": "C86", "title": "MxK runs give M times K results over independent repetitions", "statement": "MxKFoldRun and StratifiedMxKFoldRun yield exactly M*K results and the M repetitions use different foldings.", "quantifier": "every data set, M, K and model", "why_tests_cant": "all sizes; needs the seed handling to be tracked", "anchors": ["src/Experiment/MxKFoldRun.cpp, StratifiedMxKFoldRun.cpp: execute"]}
{"id": "C87", "title": "Bootstrap runs", "statement": "BootstrapRun yields exactly numberOfBootstraps results, the i-th trained on the sample drawn with seed i + parameter seed and tested on the whole data set.", "quantifier": "every data set, number of bootstraps and sampler", "why_tests_cant": "all sizes and random schedules", "anchors": ["src/Experiment/BootstrapRun.cpp: execute"]}
{"id": "C88", "title": "Paired test statistics are antisymmetric", "statement": "Swapping the two experiments negates the statistic of the paired t, 5x2 t and combined 5x2 t tests and leaves the combined 5x2 F statistic unchanged; applicability is symmetric too.", "quantifier": "every pair of experiments (exact arithmetic)", "why_tests_cant": "all experiment results", "anchors": ["src/StatisticalTest/Pairedt.cpp, Paired5x2t.cpp, Combined5x2t.cpp, Combined5x2f.cpp: testStatistic"]}
{"id": "C89", "title": "Tests reject inapplicable input", "statement": "Each paired test throws StatisticalTestNotApplicable when the numbers of experiments differ, the 5x2 tests when it is not 10, and all of them when the relevant variance (or number of signed differences) is 0; otherwise they return a result.", "quantifier": "every pair of experiments (exact arithmetic)", "why_tests_cant": "all inputs", "anchors": ["src/StatisticalTest/*.cpp: testStatistic, compare"]}
{"id": "C90", "title": "Combined F and t statistics are related", "statement": "The combined 5x2 F statistic is non-negative, and it equals (sum of squared differences)/(2 * sum of the five variances).", "quantifier": "every pair of 10-result experiments with non-zero variance (exact arithmetic)", "why_tests_cant": "all experiment results", "anchors": ["src/StatisticalTest/Combined5x2f.cpp: testStatistic"]}
{"id": "C91", "title": "Sign test p-value is a binomial tail", "statement": "The sign test returns sum_{i<=plus} C(total, i)/2^total where plus/minus count strict wins/losses and total = plus + minus; it lies in (0, 1].", "quantifier": "every pair of experiments with at least one strict difference", "why_tests_cant": "all sizes; the int factorial overflows for total >= 13", "anchors": ["src/StatisticalTest/Sign.cpp: compare, binomial, factorial"]}
{"id": "C92", "title": "Test decisions", "statement": "oneTailed(alpha) rejects exactly when p < alpha; twoTailed(alpha) rejects exactly when p < alpha/2 or p > 1 - alpha/2 (p < alpha for two-tailed-only results); decreasing alpha never turns a non-rejection into a rejection.", "quantifier": "every p-value and alpha", "why_tests_cant": "all real values", "anchors": ["src/StatisticalTest/StatisticalTestResult.cpp"]}
{"id": "C93", "title": "Comparison of two classifiers is antisymmetric", "statement": "PairedTest::compare(a, b, alpha) = -compare(b, a, alpha) whenever not both one-sided comparisons reject, and the combined 5x2 F test can always be used with this method.", "quantifier": "every pair of experiments, every alpha", "why_tests_cant": "all inputs", "anchors": ["src/StatisticalTest/PairedTest.cpp: compare"]}
{"id": "C94", "title": "Discrete-to-continuous filter", "statement": "DiscreteToContinuous replaces every discrete attribute of an instance by the one-hot vector of its value over the (sorted) values of that attribute in the data set, appended in attribute order after the remaining attributes, and keeps all non-discrete attributes in order; no discrete attribute is left.", "quantifier": "every data set and instance of it", "why_tests_cant": "all attribute mixes and value sets", "anchors": ["src/Filter/DiscreteToContinuous.cpp, LaryFilter.cpp"]}
{"id": "C95", "title": "Lary-to-binary filter", "statement": "LaryToBinary replaces every discrete attribute by one binary attribute per value, true for exactly the instance's value, and keeps the others in order.", "quantifier": "every data set and instance of it", "why_tests_cant": "all attribute mixes and value sets", "anchors": ["src/Filter/LaryToBinary.cpp, LaryFilter.cpp"]}
{"id": "C96", "title": "Discrete-to-indexed filter", "statement": "DiscreteToIndexed replaces every discrete attribute by one indexed attribute holding the position of its value among the sorted values of the data set and their number; the index is always in range for instances of the data set.", "quantifier": "every data set and instance of it", "why_tests_cant": "all attribute mixes and value sets", "anchors": ["src/Filter/DiscreteToIndexed.cpp, LaryFilter.cpp"]}
{"id": "C97", "title": "Filters keep the data definition in step with the data", "statement": "After convert() the data definition's attribute types equal the attribute types of the converted instances.", "quantifier": "every data set and every attribute-replacing filter", "why_tests_cant": "all attribute mixes", "anchors": ["src/Filter/FeatureFilter.cpp: convert", "src/Filter/*.cpp: convertDataDefinition", "src/Filter/LaryFilter.cpp: removeDiscreteAttributes(int)"]}
{"id": "C98", "title": "Normalisation", "statement": "After Normalize::convert every continuous column with positive standard deviation has mean 0 and sample standard deviation 1, discrete attributes are unchanged and the order of the values in a column is preserved.", "quantifier": "every data set of at least two instances without repeated instance objects (exact arithmetic)", "why_tests_cant": "all data sets", "anchors": ["src/Filter/Normalize.cpp"]}
{"id": "C99", "title": "Saved sparse vectors and SVM models are restored", "statement": "Writing a NodeList, or a whole SVM model, and reading it back restores the same data.", "quantifier": "every NodeList/model whose numbers survive printing and whose labels contain no white space", "why_tests_cant": "all models", "anchors": ["src/Model/Svm/NodeList.cpp, Node.cpp, SvmModel.cpp: serialize, stream constructors"]}
{"id": "C100", "title": "Saved random classifiers are restored", "statement": "Serialising a RandomModel and loading it restores its class labels.", "quantifier": "every label list without white space", "why_tests_cant": "all models", "anchors": ["src/Model/RandomModel.cpp: serialize, load"]}
{"id": "C101", "title": "Saved decision trees are restored", "statement": "Serialising a decision tree and loading it restores a tree with the same predictions.", "quantifier": "every tree", "why_tests_cant": "all trees, unbounded depth", "anchors": ["src/Model/DecisionTree/DecisionNode.cpp, DecisionCondition.cpp: serialize, stream constructors"]}
{"id": "C102", "title": "Saved LDA models are restored", "statement": "Serialising an LDA model and loading it with loadModel restores its weights.", "quantifier": "every model", "why_tests_cant": "all models", "anchors": ["src/Model/Parametric/LdaModel.cpp: serialize, load"]}
{"id": "C103", "title": "Saved instance lists are restored", "statement": "Serialising an instance list (as part of a k-NN or k-means model) and loading it restores the instances.", "quantifier": "every non-empty list", "why_tests_cant": "all lists", "anchors": ["src/InstanceList/InstanceList.cpp: serialize, InstanceList(ifstream&)"]}
{"id": "C104", "title": "Linear discriminant analysis is Bayes' rule with a shared covariance", "statement": "A trained LDA model scores each class by its log relative frequency minus half the squared Mahalanobis distance from the instance to the class mean under the inverse of the pooled within-class covariance matrix, up to a term common to all classes, and predicts a class with the highest value.", "quantifier": "every training list of continuous instances with at least two instances per class, every instance (exact arithmetic; the matrix inverse is the library's)", "why_tests_cant": "infinitely many training lists and instances", "anchors": ["src/Model/Parametric/LdaModel.cpp: train, calculateMetric", "src/Model/Parametric/GaussianModel.cpp: predict"]}
{"id": "C105", "title": "Quadratic discriminant analysis is Bayes' rule with one covariance per class", "statement": "A trained QDA model scores each class by its log relative frequency minus half the log determinant of the class covariance matrix minus half the squared Mahalanobis distance to the class mean under its inverse.", "quantifier": "every training list of continuous instances with at least two instances per class, every instance (exact arithmetic; inverse and determinant are the library's)", "why_tests_cant": "infinitely many training lists and instances", "anchors": ["src/Model/Parametric/QdaModel.cpp: train, calculateMetric"]}
{"id": "C106", "title": "Continuous naive Bayes scores by the Gaussian posterior", "statement": "On continuous data a trained naive Bayes model orders the classes by the logarithm of relative frequency times the product of Gaussian densities with the class means and standard deviations.", "quantifier": "every training list of continuous instances with at least two instances per class, every instance (exact arithmetic)", "why_tests_cant": "infinitely many training lists and instances", "anchors": ["src/Model/Parametric/NaiveBayesModel.cpp: train, logLikelihoodContinuous"]}
{"id": "C107", "title": "Each split of a grown tree minimises the remaining class entropy", "statement": "Every inner node of a grown tree splits on a test whose expected class entropy is smallest among all tests considered (every value of a discrete attribute, every threshold between two values of a continuous one, every value of an indexed one), the first of them in the order of the attributes and of the values if several are equally good, and a node is a leaf only if its labels agree or no test lowers the entropy. Every node carries the majority label and the class counts of the training instances that reach it.", "quantifier": "every non-empty homogeneous training list (exact arithmetic)", "why_tests_cant": "infinitely many lists, all nodes of trees of any depth", "anchors": ["src/Model/DecisionTree/DecisionNode.cpp: DecisionNode, entropyForDiscreteAttribute, createChildrenForContinuous"]}
{"id": "C108", "title": "Single runs hold out one fold", "statement": "SingleRunWithK and StratifiedSingleRunWithK train exactly once and test exactly once, on complementary parts of the data set; the test part holds floor(n/K) instances (per class: floor or ceiling of n_c/K in the stratified version).", "quantifier": "every data set, K >= 1, model and random order (given the cross-validation library's fold contract)", "why_tests_cant": "all data sets and random orders", "anchors": ["src/Experiment/SingleRunWithK.cpp: execute", "src/Experiment/StratifiedSingleRunWithK.cpp: execute"]}
{"id": "C109", "title": "Folds are balanced", "statement": "Every test fold of a K-fold run holds floor(n/K) or ceiling(n/K) instances, and every test fold of a stratified run holds floor(n_c/K) or ceiling(n_c/K) instances of each class c.", "quantifier": "every data set, K >= 1, fold and random order (given the cross-validation library's fold contract)", "why_tests_cant": "all data sets and random orders", "anchors": ["src/Experiment/KFoldRun.cpp: execute", "src/Experiment/StratifiedKFoldRun.cpp: execute"]}
{"id": "C110", "title": "Data files without declared types", "statement": "DataSet(ifstream&) takes a column as continuous exactly when its cell in the first line is a number and as discrete otherwise; the data set then holds, in order, the meanings of exactly the lines with the right number of columns and numbers in the numeric columns, a label with semicolons giving a composite instance.", "quantifier": "every file whose numeric texts are in range", "why_tests_cant": "all file contents", "anchors": ["src/DataSet/DataSet.cpp: DataSet(ifstream&)"]}
{"id": "C111", "title": "Writing and re-reading a data set without declared types", "statement": "A data set of discrete and continuous attributes with plain and composite instances written by writeToFile and read by DataSet(ifstream&) is restored, composite labels included, when values contain no separators, numbers print exactly and no name in the first row is a numeral.", "quantifier": "every such data set", "why_tests_cant": "all data sets", "anchors": ["src/DataSet/DataSet.cpp: writeToFile, DataSet(ifstream&)", "src/Instance/CompositeInstance.cpp: to_string"]}
{"id": "C112", "title": "Means and deviations of one-hot coded columns", "statement": "continuousAttributeAverage and continuousAttributeStandardDeviation give for an indexed attribute the means and sample standard deviations of its 0/1 indicator columns, for a continuous one its mean and sample standard deviation, concatenated in attribute order.", "quantifier": "every list of at least two instances with indices in range (exact arithmetic)", "why_tests_cant": "arbitrary data", "anchors": ["src/InstanceList/InstanceList.cpp: continuousAttributeAverage, continuousAttributeStandardDeviation"]}
{"id": "C113", "title": "Editing a data definition", "statement": "addAttribute appends a type, removeAttribute(i) removes exactly the i-th type and keeps the others in order, removeAllAttributes removes all.", "quantifier": "every definition and index", "why_tests_cant": "all type lists", "anchors": ["src/DataSet/DataDefinition.cpp: addAttribute, removeAttribute, removeAllAttributes"]}
{"id": "C114", "title": "Principal components", "statement": "Pca(ds, k).convert() keeps every label and replaces the attributes of every instance by k numbers, the projections of its old numbers on the first k eigenvectors of the covariance matrix of the data; the new columns are uncorrelated and their sample variances are the eigenvalues.", "quantifier": "every data set of at least two numeric instances without repeated objects and every k up to the dimension (exact arithmetic, given the eigenvector contract of the math library)", "why_tests_cant": "all data sets and dimensions", "anchors": ["src/Filter/Pca.cpp: Pca(dataSet, numberOfDimensions), train, convertInstance", "src/Filter/FeatureFilter.cpp: convert"]}
{"id": "C115", "title": "The perceptron climbs the log-likelihood", "statement": "Presenting a numeric training instance to the linear perceptron adds to every weight the learning rate times the derivative, with respect to that weight, of the logarithm of the (softmax) probability the model gives to the class of the instance.", "quantifier": "every weight matrix of the right size, instance with a known class and learning rate (exact arithmetic)", "why_tests_cant": "all weights, inputs and dimensions", "anchors": ["src/Model/NeuralNetwork/LinearPerceptronModel.cpp: train", "src/Model/NeuralNetwork/NeuralNetworkModel.cpp: calculateRMinusY"]}
{"id": "C116", "title": "Backpropagation computes the gradient", "statement": "Presenting a numeric training instance to a multilayer perceptron or to a deep network of any number of layers adds to every weight of every layer the learning rate times the derivative, with respect to that weight, of the logarithm of the probability the network gives to the class of the instance.", "quantifier": "every depth, layer width, weights, activation function (rectifier nodes not exactly at their kink), instance and learning rate (exact arithmetic)", "why_tests_cant": "all depths, weights and inputs", "anchors": ["src/Model/NeuralNetwork/MultiLayerPerceptronModel.cpp: train", "src/Model/NeuralNetwork/DeepNetworkModel.cpp: train"]}
{"id": "C117", "title": "The autoencoder descends the reconstruction error", "statement": "Presenting a numeric instance to the autoencoder subtracts from every weight the learning rate times the derivative, with respect to that weight, of half the squared distance between the instance and its reconstruction.", "quantifier": "every number of hidden nodes, weights, instance and learning rate (exact arithmetic)", "why_tests_cant": "all weights and inputs", "anchors": ["src/Model/NeuralNetwork/AutoEncoderModel.cpp: train"]}
{"id": "C118", "title": "The networks compute the composition of their layers", "statement": "The output of a linear perceptron, a multilayer perceptron, a deep network of any depth and an autoencoder on an input vector is the composition of its layers (weighted sums with a bias input, activation function at the hidden nodes only); the error reported by testAutoEncoder is the mean squared distance between the instances and their reconstructions.", "quantifier": "every depth, layer width, weights and input of fitting sizes (exact arithmetic)", "why_tests_cant": "all depths and weights", "anchors": ["src/Model/NeuralNetwork/LinearPerceptronModel.cpp: calculateOutput", "src/Model/NeuralNetwork/MultiLayerPerceptronModel.cpp: calculateOutput", "src/Model/NeuralNetwork/DeepNetworkModel.cpp: calculateOutput", "src/Model/NeuralNetwork/AutoEncoderModel.cpp: predictInput, testAutoEncoder"]}
{"id": "C119", "title": "Training a network succeeds and the network predicts", "statement": "Training a perceptron, a multilayer perceptron, a fresh deep network or an autoencoder on a list of numeric instances of one dimension returns normally, and the trained model answers for every numeric instance of that dimension: a class label of the training list for a plain instance, one of its possible labels for a composite one, as many numbers as the instance has for the autoencoder.", "quantifier": "every non-empty numeric training list (for the autoencoder: with two instances of some class), network size, number of epochs, random weights and random order (exact arithmetic)", "why_tests_cant": "all data sets, network sizes and training histories", "anchors": ["src/Model/NeuralNetwork/LinearPerceptronModel.cpp: train", "src/Model/NeuralNetwork/MultiLayerPerceptronModel.cpp: train", "src/Model/NeuralNetwork/DeepNetworkModel.cpp: train", "src/Model/NeuralNetwork/AutoEncoderModel.cpp: train", "src/Model/NeuralNetwork/NeuralNetworkModel.cpp: predict"]}
{"id": "C120", "title": "Soft decision tree growth never hurts on the validation part", "statement": "While a soft decision tree grows, a split is kept only if the tree then makes fewer wrong predictions on the validation part; otherwise the tree predicts exactly what it predicted before. So growth ends, never raises the number of wrong validation predictions, and adds at most as many splits as there are validation instances.", "quantifier": "every tree, path to a leaf, data, random numbers and learning parameters, in any arithmetic", "why_tests_cant": "all growth histories of unbounded depth", "anchors": ["src/Model/DecisionTree/SoftDecisionNode.cpp: findBestSoftDecisionTreeSplit, createSoftDecisionTree, errorOfSoftDecisionTree"]}
{"id": "C121", "title": "Training a soft decision tree succeeds", "statement": "Training a soft decision tree on a non-empty list of numeric instances of one dimension succeeds and the trained tree predicts, for every numeric instance of that dimension, a label of the training list.", "quantifier": "every training list, random numbers and learning parameters (exact arithmetic)", "why_tests_cant": "all data sets and growth histories", "anchors": ["src/Model/DecisionTree/SoftDecisionTree.cpp: train, predict", "src/Model/DecisionTree/SoftDecisionNode.cpp: calculateOutput, gradientDescentSoftDecisionTree"]}
{"id": "C122", "title": "Soft decision trees follow the gradient of the likelihood", "statement": "During the growth of a soft decision tree, each presented instance changes the vectors of the two new leaves and the weights of their split by the learning rate times the gradient of the log-probability the tree gives to the class of the instance, plus alpha times the previous change.", "quantifier": "every tree of any depth, split, instance, learning rate, momentum and previous change (exact arithmetic)", "why_tests_cant": "derivatives over all real weights", "anchors": ["src/Model/DecisionTree/SoftDecisionNode.cpp: gradientDescentSoftDecisionTree"]}
{"id": "C123", "title": "The SVM solver stops only at a nearly optimal point", "statement": "When the solver of a two-class problem stops, its multipliers satisfy the constraints and no admissible change of two of them improves the objective at a rate of 0.001 or more, for the whole problem, including the instances set aside by shrinking.", "quantifier": "every two-class problem with C > 0, kernel and number of rounds (exact arithmetic)", "why_tests_cant": "all problems and iteration and shrinking histories", "anchors": ["src/Model/Svm/Solver.cpp: solve, selectWorkingSet, reconstructGradient, doShrinking"]}
{"id": "C124", "title": "The SVM threshold satisfies the margin conditions", "statement": "When the solver stops, the multipliers and the threshold it computes satisfy the margin conditions up to 0.001: an instance with multiplier below C has y f(x) > 0.999, one with a positive multiplier has y f(x) < 1.001, where f is the decision function of the training set.", "quantifier": "every two-class problem with C > 0, kernel and number of rounds (exact arithmetic)", "why_tests_cant": "all problems and iteration and shrinking histories", "anchors": ["src/Model/Svm/Solver.cpp: solve, calculateRho"]}
{"id": "C125", "title": "The trained SVM computes its two-class decision functions", "statement": "Training an SVM on a non-empty list of numeric instances, when every two-class problem is solved, returns normally; for every query and every pair of classes the trained machine computes the decision value of the two-class solution, the kernel sum over all training instances of the two classes minus the threshold, although it stores only the support vectors and shares them between the pairs; it answers with the first of the classes with the most votes.", "quantifier": "every training list, number of classes, kernel, solutions of the two-class problems and query (exact arithmetic; a machine without support vectors before)", "why_tests_cant": "all data sets, numbers of classes and patterns of support vectors", "anchors": ["src/Model/Svm/SvmModel.cpp: train, solveSingle, predictValues, predict"]}
{"id": "C126", "title": "The trained SVM classifies the training instances its solutions get right", "statement": "When every two-class problem is solved within min(number of its instances, 1000) rounds, the trained SVM has multipliers that satisfy the constraints and margin conditions up to 0.001, and every training instance whose multiplier is below C in all problems of its class is given its own class.", "quantifier": "every training list, number of classes, kernel and C > 0 (exact arithmetic)", "why_tests_cant": "all data sets and solver histories", "anchors": ["src/Model/Svm/SvmModel.cpp: train, predict", "src/Model/Svm/Solver.cpp: solve"]}
{"id": "C127", "title": "The SVM solver makes progress and stops", "statement": "Every round of the two-class solver that does not end the loop strictly lowers the objective and keeps the constraints, and the solver stops after finitely many rounds whenever no vector occurs with two labels.", "quantifier": "every two-class problem with C > 0 whose instances differ in the kernel space or agree in vector and label (exact arithmetic)", "why_tests_cant": "termination over all problems; no bound on the number of rounds is known in advance", "anchors": ["src/Model/Svm/Solver.cpp: solve"]}
{"id": "C128", "title": "The SVM solver ends near the minimum", "statement": "When the solver stops with a linear kernel, or a polynomial or RBF kernel with parameters that are not negative, its multipliers are feasible and no feasible multipliers have an objective smaller by more than C n / 1000, n being the number of instances.", "quantifier": "every two-class problem with C > 0 and such a kernel, every number of rounds (exact arithmetic)", "why_tests_cant": "a global minimum over a continuum of points", "anchors": ["src/Model/Svm/Solver.cpp: solve", "src/Model/Svm/Kernel.cpp: kernelFunction"]}
{"id": "C129", "title": "Training a support vector machine returns", "statement": "Training an SVM with a linear, RBF (gamma > 0) or polynomial kernel (gamma > 0, constant >= 0, odd degree or constant > 0) on a non-empty list of numeric instances of one dimension, none of which have the same values and different classes, returns after finitely many solver rounds, and every prediction afterwards returns a class label of the training data.", "quantifier": "every such training list, number of classes, C > 0, query (exact arithmetic; a machine without support vectors before)", "why_tests_cant": "termination over all data sets", "anchors": ["src/Model/Svm/SvmModel.cpp: train, solveSingle, predict", "src/Model/Svm/Solver.cpp: solve"]}
{"id": "C130", "title": "Saved dummy classifiers are restored", "statement": "Writing a DummyModel and reading it back gives a model with the same predictions and the same class probabilities.", "quantifier": "every training list whose labels are non-empty and contain no white space; the Math library reads back the distributions it wrote", "why_tests_cant": "all models", "anchors": ["src/Model/DummyModel.cpp: serialize, load"]}
{"id": "C131", "title": "Saved naive Bayes models of numeric attributes are restored", "statement": "Writing a naive Bayes model trained on numeric attributes and loading it into a new object gives a model with the same predictions.", "quantifier": "every such model whose means and deviations survive printing and whose labels contain no white space", "why_tests_cant": "all models and queries", "anchors": ["src/Model/Parametric/NaiveBayesModel.cpp: serialize, load"]}
{"id": "C132", "title": "Saved neural networks are restored", "statement": "Writing a perceptron, multilayer perceptron or deep network and loading it restores its class labels and its weights.", "quantifier": "every network", "why_tests_cant": "all networks, all ways of loading", "anchors": ["src/Model/NeuralNetwork/NeuralNetworkModel.cpp: serialize, load", "src/Model/NeuralNetwork/LinearPerceptronModel.cpp: load", "src/Model/NeuralNetwork/MultiLayerPerceptronModel.cpp: load", "src/Model/NeuralNetwork/DeepNetworkModel.cpp: load"]}
{"id": "C133", "title": "Saved QDA and discrete naive Bayes models are restored", "statement": "Writing a QDA model, or a naive Bayes model of discrete attributes, and loading it restores its quadratic terms and its attribute distributions.", "quantifier": "every model", "why_tests_cant": "all models, all ways of loading", "anchors": ["src/Model/Parametric/QdaModel.cpp: load", "src/Model/Parametric/LdaModel.cpp: serialize", "src/Model/Parametric/NaiveBayesModel.cpp: serialize, load"]}
{"id": "C134", "title": "Class probabilities of a decision tree", "statement": "For every instance of the training types predictProbability of a trained tree or stump, pruned or not, lists exactly the classes of the training instances that pass the same tests, each with its share among them; the numbers sum to 1, and the label predicted for a plain instance is one of the most probable ones.", "quantifier": "every non-empty training list, with or without pruning, every subset of attributes drawn, every query of the same types (exact arithmetic)", "why_tests_cant": "all data sets, trees and queries", "anchors": ["src/Model/DecisionTree/DecisionNode.cpp: DecisionNode, predictProbability", "src/Model/DecisionTree/DecisionTree.cpp: predictProbability, train, prune"]}
{"id": "C135", "title": "Class probabilities of a neural network", "statement": "predictProbability of a trained network gives each class of the training data a number between 0 and 1, the numbers sum to 1, and the predicted label has the greatest.", "quantifier": "every trained network and numeric query", "why_tests_cant": "all weights and queries", "anchors": ["src/Model/NeuralNetwork/NeuralNetworkModel.cpp: predictProbability", "src/Model/NeuralNetwork/LinearPerceptronModel.cpp: calculateOutput"]}
{"id": "C136", "title": "Training a decision tree with pruning succeeds", "statement": "Training a decision tree with pruning on a non-empty list of instances of one type returns a tree, and that tree predicts a label for every instance of the type.", "quantifier": "every such list, ratio in [0, 1] and split of the instances (exact arithmetic)", "why_tests_cant": "all data sets, including those with very small classes", "anchors": ["src/Model/DecisionTree/DecisionTree.cpp: train, prune, pruneNode", "src/InstanceList/Partition.cpp: Partition"]}
{"id": "C137", "title": "The Mahalanobis distance is the quadratic form of its matrix", "statement": "MahalanobisDistance of two numeric instances is the quadratic form of the given matrix at the difference of their attribute vectors; it is symmetric, non-negative for a positive semidefinite matrix and zero only for equal vectors if the matrix is positive definite. Vectors of other sizes have distance INT_MAX.", "quantifier": "every square matrix and all pairs of instances (exact arithmetic)", "why_tests_cant": "all matrices and vectors", "anchors": ["src/DistanceMetric/MahalanobisDistance.cpp: distance"]}
{"id": "C138", "title": "One nearest neighbour remembers the training data", "statement": "With k = 1 and the Euclidean metric, the k-NN classifier predicts for a plain instance with continuous and discrete attributes that occur in the training data the label they have there, with probability 1, if the training data are not contradictory there.", "quantifier": "every training list of one type, every such query (exact arithmetic)", "why_tests_cant": "all training lists and queries", "anchors": ["src/Model/NonParametric/KnnModel.cpp: train, predict, predictProbability, nearestNeighbors", "src/DistanceMetric/EuclidianDistance.cpp: distance"]}
{"id": "C139", "title": "A decision tree does not depend on the order of the training instances", "statement": "Training a decision tree without pruning, a stump, or a random-forest tree with the same attribute subset, on the same instances in another order gives a tree that predicts the same label and the same class probabilities for every instance of the training types.", "quantifier": "every non-empty training list of one type and every reordering of it, all queries (exact arithmetic)", "why_tests_cant": "all data sets and all permutations", "anchors": ["src/Model/DecisionTree/DecisionNode.cpp: DecisionNode, predict, predictProbabilityDistribution", "src/Model/DecisionTree/DecisionTree.cpp: train", "src/Model/DecisionTree/DecisionStump.cpp: train"]}
{"id": "C140", "title": "Parametric classifiers do not depend on the order of the training instances", "statement": "Training the dummy classifier, naive Bayes, the nearest-mean classifier, LDA or QDA on the same instances in another order gives the same predictions.", "quantifier": "every training list the classifier accepts and every reordering of it, all queries of the same type (exact arithmetic)", "why_tests_cant": "all data sets and all permutations", "anchors": ["src/Model/DummyModel.cpp: train", "src/Model/Parametric/NaiveBayesModel.cpp: train", "src/Model/Parametric/KMeansModel.cpp: train", "src/Model/Parametric/LdaModel.cpp: train", "src/Model/Parametric/QdaModel.cpp: train", "src/Model/Parametric/GaussianModel.cpp: predict"]}
{"id": "C141", "title": "k nearest neighbours do not depend on the order of the training instances", "statement": "Training k-NN on the same instances in another order gives the same predictions and probabilities.", "quantifier": "every training list and every reordering of it, every k, distance and query", "why_tests_cant": "all data sets and all permutations", "anchors": ["src/Model/NonParametric/KnnModel.cpp: train, predict, nearestNeighbors"]}
{"id": "C142", "title": "Instances behave as independent values", "statement": "Any sequence of calls that create instances, add, remove or overwrite attributes, project on a feature subset, apply filters to data sets or delete instances has the effect of the same calls on values: every instance reads as if nobody else could reach its attributes, and calls on other instances leave it as it is.", "quantifier": "every finite sequence of such calls on any number of instances", "why_tests_cant": "all histories: aliasing shows only when one owner writes after another has copied the pointer", "anchors": ["src/Instance/Instance.cpp: addAttribute, removeAttribute, removeAllAttributes, getSubSetOfFeatures, ~Instance", "src/Filter/LaryFilter.cpp: removeDiscreteAttributes", "src/Filter/Normalize.cpp: convertInstance", "src/Filter/Pca.cpp: convertInstance"]}
{"id": "C143", "title": "Deleting instances", "statement": "Every instance can be deleted exactly once, in any order; its attributes go with it and no other instance changes.", "quantifier": "every history and every order of deletions", "why_tests_cant": "all histories: a dangling pointer is not observable in a passing test", "anchors": ["src/Instance/Instance.cpp: ~Instance, getSubSetOfFeatures", "src/InstanceList/InstanceList.cpp: ~InstanceList"]}
{"id": "C144", "title": "Deleting all instances releases all attributes", "statement": "An attribute object exists only as long as an instance has it; when all instances are deleted none is left.", "quantifier": "every history", "why_tests_cant": "all histories", "anchors": ["src/Instance/Instance.cpp: removeAttribute, removeAllAttributes, ~Instance", "src/Filter/Pca.cpp: convertInstance", "src/Filter/LaryFilter.cpp: removeDiscreteAttributes"]}
{"id": "C145", "title": "A trained k-NN classifier does not change when the data is edited later", "statement": "Once a k-NN classifier is trained, later calls on the instances do not change its predictions.", "quantifier": "every history before and after training, every query", "why_tests_cant": "all histories", "anchors": ["src/Model/NonParametric/KnnModel.cpp: train, predict", "src/Instance/Instance.cpp: getAttribute"]}
{"id": "C146", "title": "Tree and forest files are loaded as the trees they describe", "statement": "A file in the format that loadModel of decision trees, stumps and forests reads is loaded as exactly the trees written in it, with nothing lost, added or reordered; the loaded tree sends every instance to the same leaf and gives the same predictions.", "quantifier": "every tree (any depth and fan-out), every forest, every instance", "why_tests_cant": "all trees: recursion depth and fan-out are unbounded", "anchors": ["src/Model/DecisionTree/DecisionNode.cpp: DecisionNode(ifstream&)", "src/Model/DecisionTree/DecisionCondition.cpp: DecisionCondition(ifstream&)", "src/Model/Ensemble/TreeEnsembleModel.cpp: load"]}
{"id": "C147", "title": "Loading a model replaces the earlier contents of the object", "statement": "loadModel on an object that was trained or loaded before gives the same classifier as loadModel on a new object.", "quantifier": "every earlier state, every file, every query", "why_tests_cant": "all histories: depends on what the object held before", "anchors": ["src/Model/Parametric/LdaModel.cpp: loadWeights", "src/Model/Parametric/QdaModel.cpp: loadModel", "src/Model/Parametric/NaiveBayesModel.cpp: loadModel", "src/Model/NeuralNetwork/NeuralNetworkModel.cpp: load", "src/Model/Ensemble/TreeEnsembleModel.cpp: load", "src/Model/RandomModel.cpp: loadModel"]}
{"id": "C148", "title": "Model files are loaded as the models they describe", "statement": "For every other classifier, a file in the format its loadModel reads gives back the class labels, weights, means and stored instances written in it.", "quantifier": "every perceptron, multi-layer and deep network, random classifier, LDA, QDA, k-NN and nearest-mean model, of any size", "why_tests_cant": "all models: any number of classes, attributes, layers and instances", "anchors": ["src/Model/NeuralNetwork/LinearPerceptronModel.cpp: loadModel", "src/Model/NeuralNetwork/MultiLayerPerceptronModel.cpp: loadModel", "src/Model/NeuralNetwork/DeepNetworkModel.cpp: loadModel", "src/Model/RandomModel.cpp: loadModel", "src/Model/Parametric/LdaModel.cpp: loadWeights", "src/Model/Parametric/QdaModel.cpp: loadModel", "src/Model/NonParametric/KnnModel.cpp: load", "src/Model/Parametric/KMeansModel.cpp: load", "src/InstanceList/InstanceList.cpp: InstanceList(ifstream&)"]}
{"id": "C149", "title": "A nearest-mean classifier survives saving", "statement": "A saved nearest-mean classifier is loaded as a classifier with the same class distribution, means and predictions.", "quantifier": "every trained model, every query", "why_tests_cant": "all models and queries", "anchors": ["src/Model/Parametric/KMeansModel.cpp: serialize, loadModel", "src/InstanceList/InstanceList.cpp: serialize, InstanceList(ifstream&)"]}
{"id": "C150", "title": "Unpruned trees learn data without contradictions", "statement": "A decision tree trained without pruning gives every training instance its own label, provided no two training instances have the same attributes and different labels.", "quantifier": "every training list (any number of instances, attributes and classes)", "why_tests_cant": "all lists: depends on the greedy choices at every node", "anchors": ["src/Model/DecisionTree/DecisionNode.cpp: DecisionNode", "src/Model/DecisionTree/DecisionTree.cpp: train, predict"]}
{"id": "C151", "title": "Trees are not larger than their training data", "statement": "A tree grown from n instances has at most n leaves and at most 2n - 1 nodes, and no way from the root is longer than n - 1 steps.", "quantifier": "every training list, every tree grown from it, also with random subsets of attributes", "why_tests_cant": "all lists: recursion of unbounded depth", "anchors": ["src/Model/DecisionTree/DecisionNode.cpp: DecisionNode"]}
{"id": "C152", "title": "Normalising removes units of measurement", "statement": "If the numbers of a column are given in another unit (v replaced by a v + b, a > 0), normalising the data set gives the same instances.", "quantifier": "every data set, every choice of a > 0 and b for every column", "why_tests_cant": "all data and all units", "anchors": ["src/Filter/Normalize.cpp: convertInstance", "src/InstanceList/InstanceList.cpp: average, standardDeviation"]}
{"id": "C153", "title": "Naive Bayes does not depend on units of measurement", "statement": "Training on numbers in other units (v replaced by a v + b, a not 0, for every column) and asking in the same units gives the same predictions.", "quantifier": "every numeric training list with two or more instances per class, every query, all a and b", "why_tests_cant": "all data and all units", "anchors": ["src/Model/Parametric/NaiveBayesModel.cpp: train, logLikelihoodContinuous", "src/Model/Parametric/GaussianModel.cpp: predict"]}
{"id": "C154", "title": "Discriminant analysis does not depend on units of measurement", "statement": "Linear and quadratic discriminant analysis trained on numbers in other units (v replaced by a v + b, a not 0, for every column) and asked in the same units give the same predictions.", "quantifier": "every numeric training list with non-singular covariance matrices, every query, all a and b", "why_tests_cant": "all data and all units; any number of columns", "anchors": ["src/Model/Parametric/LdaModel.cpp: train, calculateMetric", "src/Model/Parametric/QdaModel.cpp: train, calculateMetric", "src/Model/Parametric/GaussianModel.cpp: predict"]}
{"id": "C155", "title": "Nearest neighbours and nearest means do not depend on a common unit or on the zero point", "statement": "Multiplying all numbers of training data and query by the same factor (or its negative) and shifting every column leaves the neighbours, predictions and class probabilities of k-NN and the predictions of the nearest-mean classifier with the Euclidean distance unchanged.", "quantifier": "every training list, k, query, factor and shifts; with plain discrete attributes the factor is 1", "why_tests_cant": "all data and all units", "anchors": ["src/DistanceMetric/EuclidianDistance.cpp: distance", "src/Model/NonParametric/KnnModel.cpp: nearestNeighbors, predict, predictProbability", "src/Model/Parametric/KMeansModel.cpp: train, calculateMetric"]}
{"id": "C156", "title": "Decision trees do not depend on units of measurement or on the names of values", "statement": "Training a decision tree (with or without pruning), a stump, bagging or a random forest on numbers in other units (v replaced by a v + b, a > 0) and discrete values renamed one-to-one, and asking in the same words, gives the same predictions and class probabilities.", "quantifier": "every training list with equal attribute types, every a > 0, b and renaming per column, every query; same seed", "why_tests_cant": "all data, units and renamings; recursion of unbounded depth", "anchors": ["src/Model/DecisionTree/DecisionNode.cpp: DecisionNode, predict", "src/Model/DecisionTree/DecisionTree.cpp: train, prune", "src/Model/DecisionTree/DecisionStump.cpp: train", "src/Model/Ensemble/TreeEnsembleModel.cpp: predict"]}
{"id": "C157", "title": "Trees made of objects behave as values", "statement": "Training a decision tree creates only new objects: whatever is in memory, it makes the same tree (or fails in the same way), the trained object answers as that tree, and every other tree object keeps its answers and shares nothing with the new one. Pruning changes the objects of one tree in place, gives the pruned tree, and writes nothing else.", "quantifier": "every memory content, training list, pruning choice, instance and other tree", "why_tests_cant": "all memories and trees of any depth; the pruning recursion writes objects while the whole tree is being measured", "anchors": ["src/Model/DecisionTree/DecisionNode.cpp: DecisionNode, predict, predictProbabilityDistribution", "src/Model/DecisionTree/DecisionTree.cpp: train, prune, pruneNode, predict, predictProbability"]}
{"id": "C158", "title": "Destroying tree models", "statement": "Destroying a tree or forest object is defined and releases everything it holds exactly once; after training and destroying, the memory in use is as before, also when the object was trained more than once or copied.", "quantifier": "every memory content, tree, forest, training list", "why_tests_cant": "all trees and histories of training, copying and destroying", "anchors": ["src/Model/DecisionTree/DecisionTree.cpp: ~DecisionTree", "src/Model/DecisionTree/DecisionNode.cpp: ~DecisionNode", "src/Model/DecisionTree/SoftDecisionNode.cpp: ~SoftDecisionNode", "src/Model/Ensemble/TreeEnsembleModel.cpp: ~TreeEnsembleModel"]}
{"id": "C159", "title": "Classifiers at the ends of their parameter ranges coincide", "statement": "k-nearest neighbours with at least as many neighbours as plain training instances answers as the classifier that always returns the majority class, with the same probabilities; an ensemble of copies of one tree predicts as the tree; a decision stump is the root and first level of the unpruned tree; a random forest whose attribute subsets are at least as large as the number of attributes is bagging.", "quantifier": "every training list, distance, number of trees, seed and instance", "why_tests_cant": "all data and parameters; relates different classifiers to each other", "anchors": ["src/Model/NonParametric/KnnModel.cpp: nearestNeighbors, predict", "src/Model/Ensemble/BaggingModel.cpp: train", "src/Model/Ensemble/RandomForestModel.cpp: train", "src/Model/DecisionTree/DecisionStump.cpp: train", "src/Model/DummyModel.cpp: predict"]}
{"id": "C160", "title": "Summary of a data set", "statement": "The description of a data set states the numbers of instances, distinct classes and attributes of each kind, and lists every class once in order of first appearance, in a form that can be taken apart when no class name contains a semicolon; its class partition holds the instances of each class in order. This works for every data set, also one without instances.", "quantifier": "every data set", "why_tests_cant": "all data sets of any size", "anchors": ["src/DataSet/DataSet.cpp: getClasses, info, sampleSize, classCount, attributeCount, getClassInstances"]}
{"id": "C161", "title": "Setting the possible classes of a composite instance", "statement": "After setting the possible classes of a composite instance, its possible classes are the ones given; class and attributes are unchanged.", "quantifier": "every composite instance and list of classes", "why_tests_cant": "all earlier contents of the instance", "anchors": ["src/Instance/CompositeInstance.cpp: setPossibleClassLabels, getPossibleClassLabels"]}
{"id": "C162", "title": "Cross-validation results are those of new classifiers", "statement": "The i-th result of a K-fold run, plain or stratified, is what a new classifier of that kind, trained only on the i-th training set, gets on the i-th test set.", "quantifier": "every classifier, data set, number of folds, seed and earlier use of the classifier object", "why_tests_cant": "all data and histories; a run shares one classifier object between folds", "anchors": ["src/Experiment/KFoldRun.cpp: runExperiment, execute", "src/Experiment/StratifiedKFoldRun.cpp: execute", "src/Model/Parametric/LdaModel.cpp: train", "src/Model/Parametric/QdaModel.cpp: train", "src/Model/Parametric/NaiveBayesModel.cpp: train", "src/Model/Ensemble/BaggingModel.cpp: train", "src/Model/NeuralNetwork/DeepNetworkModel.cpp: train"]}
{"id": "C163", "title": "Answers do not depend on earlier questions", "statement": "What a trained classifier answers for an instance does not depend on which instances it was asked about before.", "quantifier": "every trained classifier, history of questions and instance", "why_tests_cant": "all histories of questions", "anchors": ["src/Model/NeuralNetwork/NeuralNetworkModel.cpp: predict, predictProbability, createInputVector", "src/Model/DecisionTree/DecisionTree.cpp: predict"]}
{"id": "C164", "title": "The predicted class is a most probable one", "statement": "The predicted class is among the classes with reported probabilities, and none of them has a larger probability.", "quantifier": "every training list and instance", "why_tests_cant": "all data; relates two functions to each other", "anchors": ["src/Model/DummyModel.cpp: predict, predictProbability", "src/Model/NonParametric/KnnModel.cpp: predict, predictProbability", "src/Model/Ensemble/BaggingModel.cpp: predict, predictProbability", "src/Model/DecisionTree/DecisionTree.cpp: predict, predictProbability"]}
{"id": "C165", "title": "Feature selection finds a subset no single step improves", "statement": "The subset of features that feature selection returns is not less accurate than the non-empty subset it started from and than any non-empty subset one step away in the direction of the search, where the accuracy of a subset is what the same experiment gives with a new classifier on the data restricted to it.", "quantifier": "every search direction, kind of experiment, classifier, data set, seed and earlier use of the classifier object", "why_tests_cant": "all data sets and histories; the search runs many experiments with one classifier object", "anchors": ["src/FeatureSelection/SubSetSelection.cpp: execute", "src/Experiment/Experiment.cpp: featureSelectedExperiment", "src/Experiment/MultipleRun.h: execute"]}
{"id": "C166", "title": "The order of the columns does not matter", "statement": "If the attributes of all training instances and of the instance asked about are put into another order (as restricting them to all features in that order does), the trained classifier makes the same prediction.", "quantifier": "every permutation of the columns, training data of any size, instance", "why_tests_cant": "all permutations and data sets; ties between columns only appear on particular data", "anchors": ["src/Model/Parametric/KMeansModel.cpp: calculateMetric", "src/Model/Parametric/NaiveBayesModel.cpp: calculateMetric", "src/Model/Parametric/LdaModel.cpp: calculateMetric", "src/Model/Parametric/QdaModel.cpp: calculateMetric", "src/Model/NonParametric/KnnModel.cpp: nearestNeighbors", "src/Model/DecisionTree/DecisionNode.cpp: DecisionNode", "src/Instance/Instance.cpp: getSubSetOfFeatures"]}
{"id": "C167", "title": "The class of an instance has no influence on its prediction", "statement": "What a classifier answers for an instance (class and class probabilities) depends on the attributes and the possible classes of the instance, never on the class stored in it; so a test compares the true classes with predictions made without them.", "quantifier": "every classifier in every state (trained, loaded, new), every instance, every two classes", "why_tests_cant": "all states and instances; leaking the class makes every test result look better instead of failing", "anchors": ["src/Model/DummyModel.cpp: predict", "src/Model/RandomModel.cpp: predict", "src/Model/NonParametric/KnnModel.cpp: predict, predictProbability", "src/Model/Parametric/GaussianModel.cpp: predict", "src/Model/DecisionTree/DecisionNode.cpp: predict, predictProbabilityDistribution", "src/Model/Ensemble/TreeEnsembleModel.cpp: predict, predictProbability", "src/Model/NeuralNetwork/NeuralNetworkModel.cpp: predict, predictProbability", "src/Model/Svm/SvmModel.cpp: predict", "src/Model/DecisionTree/SoftDecisionTree.cpp: predict", "src/Model/Model.cpp: test"]}
{"id": "C168", "title": "Training a decision tree returns in double precision", "statement": "Computed in IEEE double precision (round to nearest even, not in exact arithmetic), training a decision tree, a stump or a random-forest tree on a non-empty list of instances returns; the recursion is never deeper than the number of instances.", "quantifier": "every training list, every depth, every library of elementary functions; arithmetic with 53-bit significands", "why_tests_cant": "all training lists; whether a useless division seems to lower the entropy depends on the last bit of the computed logarithms, so a few inputs recurse until the stack overflows while nearly all tests pass", "anchors": ["src/Model/DecisionTree/DecisionNode.cpp: DecisionNode, createChildrenForDiscreteIndexed, createChildrenForContinuous, entropyForDiscreteAttribute", "src/Model/DecisionTree/DecisionTree.cpp: train"]}
{"id": "C169", "title": "Sizes of the parts of a split in double precision", "statement": "Computed in IEEE double precision, a random split with ratio r puts floor(r n) or ceil(r n) of n instances in the first part, and a stratified split puts ceil(r n_c) of the n_c instances of each class there; nothing is lost or duplicated.", "quantifier": "every list of instances, every ratio between 0 and 1, every random order; arithmetic with 53-bit significands", "why_tests_cant": "all class counts and ratios: the products round up past an integer for isolated combinations only, such as half of 14 out of 25", "anchors": ["src/InstanceList/Partition.cpp: Partition", "src/InstanceList/InstanceList.cpp: classDistribution"]}
{"id": "C170", "title": "Performance measures in double precision", "statement": "Computed in IEEE double precision, accuracy, precision and recall are the doubles nearest to the exact fractions; accuracy and error rate lie between 0 and 1, are 1 or 0 only if the exact values are, and add up to exactly 1; a classifier with more correct predictions on the same data has a larger accuracy; the F-measures and the mean over runs stay between 0 and 1.", "quantifier": "every list of class labels, every sequence of at most 2^53 classified instances, every sequence of runs", "why_tests_cant": "all confusion matrices: rounding could push a measure over 1 or make two different accuracies equal on a few of them only", "anchors": ["src/Performance/ConfusionMatrix.cpp: getAccuracy, precision, recall, fMeasure, weightedFMeasure", "src/Performance/DetailedClassificationPerformance.cpp: DetailedClassificationPerformance", "src/Performance/ExperimentPerformance.cpp: meanClassificationPerformance", "src/Model/Model.cpp: test"]}
{"id": "C171", "title": "Zero spread in double precision", "statement": "Computed in IEEE double precision, the standard deviation of a continuous column is a non-negative number that is 0 exactly if all values are equal, and the paired tests refuse their input exactly if all differences (the two differences of every repetition, for the 5x2 tests) are equal.", "quantifier": "every list of instances with finite values, every two experiments with finite error rates; a library whose square and square root have the right sign and zero", "why_tests_cant": "all columns and experiments: the computed mean of equal numbers differs from them for isolated values and lengths only (0.1 three times, for example), after which code that divides by the deviation misbehaves", "anchors": ["src/InstanceList/InstanceList.cpp: continuousAttributeAverage, continuousAttributeStandardDeviation", "src/StatisticalTest/Pairedt.cpp: testStatistic", "src/StatisticalTest/Combined5x2f.cpp: testStatistic", "src/StatisticalTest/Combined5x2t.cpp: testStatistic", "src/StatisticalTest/Paired5x2t.cpp: testStatistic"]}
{"id": "C172", "title": "The Euclidean distance in double precision", "statement": "Computed in IEEE double precision, the Euclidean distance of two instances of the same type with finite numbers is a non-negative number, 0 exactly if all continuous and plain discrete attributes agree, and symmetric; one nearest neighbour predicts the label of a training instance for an instance with the same attributes, with probability 1.", "quantifier": "every two instances of the same type with finite numbers, every training list; a library whose square has the right sign and zero", "why_tests_cant": "all pairs of instances and all training lists", "anchors": ["src/DistanceMetric/EuclidianDistance.cpp: distance", "src/Model/NonParametric/KnnModel.cpp: nearestNeighbors, predict, predictProbability"]}
{"id": "C173", "title": "Classes may be called anything, as long as their alphabetical order stays", "statement": "If the classes are given other names everywhere, in the same alphabetical order, then every classifier trained on the renamed data gives the renamed answer: predicted classes and class probabilities are the old ones with the new names, and a run that ended in an error ends in the same error. The order is needed: exchanging the names of two classes changes the answers given in case of a tie.", "quantifier": "every training list, every instance (plain or with possible classes), every renaming that keeps the order of the names that occur, every parameter setting, the same random numbers; every classifier; any arithmetic", "why_tests_cant": "all data sets and all names: code that treats a particular name or the length of a name specially, or compares names in one place and positions in another, goes unnoticed with the names of a test file", "anchors": ["src/Model/DummyModel.cpp: predict", "src/Model/RandomModel.cpp: predict", "src/Model/NonParametric/KnnModel.cpp: predict, predictProbability", "src/Model/Parametric/KMeansModel.cpp: train", "src/Model/Parametric/NaiveBayesModel.cpp: train", "src/Model/Parametric/LdaModel.cpp: train", "src/Model/Parametric/QdaModel.cpp: train", "src/Model/DecisionTree/DecisionTree.cpp: train, predict", "src/Model/Ensemble/TreeEnsembleModel.cpp: predict", "src/Model/NeuralNetwork/NeuralNetworkModel.cpp: predict, predictProbability", "src/Model/DecisionTree/SoftDecisionTree.cpp: train, predict", "src/Model/Svm/SvmModel.cpp: train, predict"]}
{"id": "C174", "title": "An instance list contains what was added since it was last emptied", "statement": "After any sequence of calls of add, addAll and clear, a list contains exactly the instances brought by the calls since the last clear, in order and with repetitions; size is their number, get(i) the i-th of them, and an exception beyond the end.", "quantifier": "every sequence of calls on a list, every index", "why_tests_cant": "all histories", "anchors": ["src/InstanceList/InstanceList.cpp: add, addAll, clear, get, size"]}
{"id": "C175", "title": "Class probabilities of a network in double precision", "statement": "Computed in IEEE double precision, the class probabilities a network computes from its activations are numbers between 0 and 1, in the order of the activations, that add up to 1 up to rounding.", "quantifier": "every list of finite activations; a library whose exp has the range of binary64; arithmetic with 53-bit significands", "why_tests_cant": "all activations: the exponentials overflow only beyond about 709 and vanish below about -745, values that do not appear in small tests", "anchors": ["src/Model/NeuralNetwork/NeuralNetworkModel.cpp: normalizeOutput, calculateRMinusY"]}
{"id": "C176", "title": "Training a perceptron in double precision yields numbers", "statement": "Computed in IEEE double precision, training a perceptron on finite numbers yields weights that are numbers (not NaN).", "quantifier": "every training list of finite numbers, every parameter setting, every random initial weights; a library whose exp has the range of binary64", "why_tests_cant": "all training data and numbers of epochs: whether an activation ever leaves the range of exp depends on the scale of the data and on the whole course of the training", "anchors": ["src/Model/NeuralNetwork/LinearPerceptronModel.cpp: train, calculateOutput", "src/Model/NeuralNetwork/NeuralNetworkModel.cpp: normalizeOutput, calculateRMinusY, predict"]}
{"id": "C177", "title": "The multipliers of the support vector machine in double precision", "statement": "Computed in IEEE double precision, every multiplier is at all times a number between 0 and C (exactly, in spite of rounding, also when the curvature of a pair is zero and the step is infinite), the constraint that the multipliers weighted with the labels add up to 0 is violated after n rounds by at most n*C/2^51, and the offset handed back is a number.", "quantifier": "every list of rows with finite kernel values, every labels 1 and -1, every finite C that is not negative, every number of rounds, with and without shrinking; arithmetic with 53-bit significands", "why_tests_cant": "all problems and numbers of rounds: rounding errors depend on the last bits of the data, and add up over the rounds", "anchors": ["src/Model/Svm/Solver.cpp: solve, selectWorkingSet, doShrinking, reconstructGradient, calculateRho", "src/Model/Svm/QMatrix.cpp: getQ", "src/Model/Svm/Kernel.cpp: function"]}
{"id": "C178", "title": "Data files that were cut short", "statement": "If writing a data file stopped at any place, reading what is there with declared types gives exactly the instances whose lines are complete; reading it with guessed types gives the types of the whole file and a beginning of its instances, with nothing added.", "quantifier": "every data set that can be written, every place at which its file can end; every text for the reader with declared types", "why_tests_cant": "all crash points: the file can end inside any field of any line", "anchors": ["src/DataSet/DataSet.cpp: DataSet, writeToFile", "src/InstanceList/InstanceList.cpp: InstanceList"]}
{"id": "C179", "title": "Model files that were cut short", "statement": "A model file that ends too early is noticed: loading it does not give a model that differs from the saved one.", "quantifier": "every model, every line after which its file can end", "why_tests_cant": "all crash points of saving a model", "anchors": ["src/Model/Svm/SvmModel.cpp: SvmModel, serialize", "src/Model/Svm/NodeList.cpp: NodeList", "src/Model/Svm/Node.cpp: Node"]}
{"id": "C180", "title": "Class probabilities obtained by counting, in double precision", "statement": "Computed in IEEE double precision, the class probabilities of the dummy classifier, of k nearest neighbours, of ensembles and of decision trees are positive and at most 1, 1 exactly if only one class was counted, each the double nearest to the exact share; they add up to 1 with an error of at most 2^-53, are ordered as the counts are, equal only for equal counts, and the predicted class of a plain instance has the largest.", "quantifier": "every training list and every instance, with fewer than 2^53 instances (neighbours, trees) counted; arithmetic with 53-bit significands", "why_tests_cant": "all counts: rounding depends on the last bits of quotients", "anchors": ["src/Model/DummyModel.cpp: predict, predictProbability", "src/Model/NonParametric/KnnModel.cpp: predictProbability", "src/Model/Ensemble/TreeEnsembleModel.cpp: predictProbability", "src/Model/DecisionTree/DecisionNode.cpp: predictProbabilityDistribution"]}
{"id": "C181", "title": "Agreeing evidence does not change an answer", "statement": "If a nearest neighbour classifier predicts a class for an instance, then adding to its training set one more instance of that class, anywhere in the list and at any distance, leaves the prediction unchanged; the same holds for the dummy classifier on plain and composite instances, and for an ensemble that gets one more tree voting for the predicted class.", "quantifier": "every training list, every instance, every position and every added instance or tree whose class is the predicted one", "why_tests_cant": "all histories: an added neighbour shifts which neighbours are looked at and how ties are broken", "anchors": ["src/Model/NonParametric/KnnModel.cpp: predict, nearestNeighbors", "src/Model/DummyModel.cpp: predict", "src/Model/Ensemble/TreeEnsembleModel.cpp: predict"]}
{"id": "C182", "title": "Repeating every training instance the same number of times changes nothing", "statement": "Training on a list in which every instance is written n times gives a classifier that answers as the one trained on the list itself: the dummy and the random classifier, the nearest class mean, a nearest neighbour classifier that looks at n times as many neighbours, and a decision tree grown without pruning, for labels of plain and composite instances and for class probabilities, in exact arithmetic. Naive Bayes is different: because of add-one smoothing there is a list for which giving every instance twice changes a prediction.", "quantifier": "every non-empty training list, every n above 0 and every instance", "why_tests_cant": "all training lists: ties in sorted neighbours, entropies and class counts all have to scale alike", "anchors": ["src/Model/DummyModel.cpp: predict, predictProbability", "src/Model/RandomModel.cpp: predict, train", "src/Model/Parametric/KMeansModel.cpp: train, calculateMetric", "src/Model/NonParametric/KnnModel.cpp: predict, nearestNeighbors", "src/Model/DecisionTree/DecisionNode.cpp: DecisionNode", "src/Model/Parametric/NaiveBayesModel.cpp: train, calculateMetric"]}
{"id": "C183", "title": "Every attribute can have an influence on a random forest", "statement": "The trees of a random forest look at randomly chosen attributes; with enough trees every attribute of the data has a chance to be used. In fact all nodes of all trees look at the same attributes, the first ones of one shuffled list: the conditions of every tree are about these, changing other attributes of a query changes neither the predicted class nor the probabilities, and changing other attributes of the training data gives the same forest.", "quantifier": "every training list whose instances have equally many attributes, every number of trees, every seed, every way of drawing samples and every query", "why_tests_cant": "a statement about all forests: a test sees that one attribute is unused in one forest, not that no number of trees could use it", "anchors": ["src/Model/DecisionTree/DecisionNode.cpp: DecisionNode", "src/Model/Ensemble/RandomForestModel.cpp: train", "src/Model/Ensemble/TreeEnsembleModel.cpp: predict, predictProbability", "src/Parameter/RandomForestParameter.cpp: getAttributeSubsetSize"]}
{"id": "C184", "title": "Training takes a parameter object of the class it expects, or of a derived class", "statement": "train of every classifier casts the parameter object it is given without a check. Training ends normally only with an object of the expected class or of one derived from it; an object of a derived class is as good as one of the base class made with the same arguments; and a number of epochs that is zero or negative leaves a network with its first random weights.", "quantifier": "every parameter object of the library, every classifier that reads one, every training list and whatever the random engines answer", "why_tests_cant": "all combinations of classes and classifiers, for all data; a wrong cast may seem to work in a test", "anchors": ["src/Parameter/Parameter.cpp: getSeed", "src/Parameter/LinearPerceptronParameter.cpp: getEpoch, getCrossValidationRatio", "src/Parameter/MultiLayerPerceptronParameter.cpp: getHiddenNodes", "src/Parameter/KnnParameter.cpp: getK", "src/Parameter/BaggingParameter.cpp: getEnsembleSize", "src/Model/NeuralNetwork/LinearPerceptronModel.cpp: train", "src/Model/Svm/SvmModel.cpp: train", "src/Model/DecisionTree/DecisionTree.cpp: train"]}
{"id": "C185", "title": "Every argument given to a parameter object can make a difference", "statement": "Whoever sets an argument of a parameter object relies on it being used. Several never are: the seed of the parameters of bagging (the samples are drawn with seeds 0, 1, 2, ...), of nearest neighbours, nearest means and support vector machines; seed and ratio for a tree that is not pruned; decrease of the learning rate, validation ratio and activation function for an auto-encoder; the learning rate for a soft decision tree; the seed of a random forest that may use all attributes.", "quantifier": "every pair of values of the unused arguments, every training list and whatever the random engines answer", "why_tests_cant": "all values and all data: a test shows that two values give the same classifier once", "anchors": ["src/Model/Ensemble/BaggingModel.cpp: train", "src/Model/NonParametric/KnnModel.cpp: train", "src/Model/Parametric/KMeansModel.cpp: train", "src/Model/Svm/SvmModel.cpp: train", "src/Model/DecisionTree/DecisionTree.cpp: train", "src/Model/NeuralNetwork/AutoEncoderModel.cpp: train", "src/Model/DecisionTree/SoftDecisionTree.cpp: train", "src/Parameter/SoftDecisionTreeParameter.cpp: getAlpha"]}
{"id": "C186", "title": "Networks trained on instances with different numbers of inputs", "statement": "Training a neural network on a list whose instances have different numbers of inputs either succeeds or fails in a defined way. The instances that do not fit the network are skipped by every pass over the training part, for all four networks. But the validation after each epoch uses the last output of the object for them, so on a new object it can read the largest of no outputs, which is undefined; whether it does depends on the order of the instances and on what the object was asked before. The reconstruction of such an instance by an auto-encoder is undefined.", "quantifier": "every list of instances, all weights and parameters, all values the object has stored before", "why_tests_cant": "a test sees one order of the shuffled instances and one object history", "anchors": ["src/Model/NeuralNetwork/LinearPerceptronModel.cpp: train", "src/Model/NeuralNetwork/MultiLayerPerceptronModel.cpp: train", "src/Model/NeuralNetwork/DeepNetworkModel.cpp: train", "src/Model/NeuralNetwork/AutoEncoderModel.cpp: train, predictInput", "src/Model/NeuralNetwork/NeuralNetworkModel.cpp: createInputVector, predict", "src/Model/ValidatedModel.cpp: testClassifier"]}
{"id": "C187", "title": "What a soft decision tree starts with, and trees without a split", "statement": "A new node of a soft decision tree starts with values between -0.01 and 0.01, each from a random number of its own, and a split uses exactly the random numbers of the six nodes it creates. If training ends without a split, nothing has been learned: the scores of every instance are the first random numbers, scaled, and every instance gets the same class label, that of the first largest of the first random numbers, one per class, whatever the training data. This is always so when the validation part is empty.", "quantifier": "every sequence of random numbers (the range: those between 0 and 1), every training list of numeric instances which leaves an instance of each class to learn from, every query", "why_tests_cant": "a test sees one seed, and a constant prediction may be right for the few instances it looks at", "anchors": ["src/Model/DecisionTree/SoftDecisionNode.cpp: SoftDecisionNode, learnParameters, createSoftDecisionTree, errorOfSoftDecisionTree", "src/Model/DecisionTree/SoftDecisionTree.cpp: train, predict"]}
{"id": "C188", "title": "Shrinking loses no row that could improve the solution", "statement": "While training a support vector machine the solver stops looking at some rows (shrinking). In every state it reaches, a shrinking step changes no multiplier, and two rows it looks at, of which the first can rise and the second can fall without making the objective worse, are both looked at afterwards; in particular the pair with the largest violation. When it looks at all rows again, it takes back every row that forms such a pair with a row it looked at before.", "quantifier": "every problem with labels +1 and -1 and derivatives a double can hold, every number of rounds of the solver, in exact arithmetic", "why_tests_cant": "shrinking happens only on larger problems after many rounds; a test sees the final result of a few of them", "anchors": ["src/Model/Svm/Solver.cpp: doShrinking, selectWorkingSet, swapIndex, reconstructGradient"]}
{"id": "C189", "title": "A column with the same value in all training instances has no influence", "statement": "If one more column is added to the training data that has the same value in all instances, the predictions stay the same, whatever the instance asked about has in that column. So for nearest neighbours with the Euclidean distance (also their neighbours and probabilities), nearest means of numbers, and decision trees with and without pruning, stumps and bagged trees (also their probabilities). Not so for naive Bayes: on nominal data the smoothed counts give such a value a higher probability in larger classes, on numbers the deviation of the column is zero, all scores are NaN and the most frequent class is predicted.", "quantifier": "every list of training instances, every position and value of the column, every instance asked about, in exact arithmetic", "why_tests_cant": "a test compares a few predictions with and without one column", "anchors": ["src/Model/NonParametric/KnnModel.cpp: nearestNeighbors, predict, predictProbability", "src/DistanceMetric/EuclidianDistance.cpp: distance", "src/Model/Parametric/KMeansModel.cpp: train, calculateMetric", "src/Model/DecisionTree/DecisionNode.cpp: DecisionNode", "src/Model/Parametric/NaiveBayesModel.cpp: train, logLikelihoodContinuous, logLikelihoodDiscrete", "src/Model/Parametric/GaussianModel.cpp: predict"]}
{"id": "C190", "title": "An instance of a new class changes answers only to that class", "statement": "If an instance whose class is not in the training data is added to them, every answer of the classifier stays the same or becomes the new class, and the new class can be answered. So for the nearest mean, for the nearest neighbour (k = 1), for the dummy classifier and for naive Bayes on discrete attributes. Not so for LDA: the covariance of the one instance is 0/0, so all discriminants are NaN and every plain instance is given the most frequent class. Not so for QDA and naive Bayes on numbers: the score of the new class is NaN everywhere, so it is never answered because of its score, not even for the instance itself.", "quantifier": "every list of training instances, every added instance at every place, every instance asked about, in double precision or any ordered arithmetic", "why_tests_cant": "a test trains on data where every class has several instances", "anchors": ["src/Model/Parametric/LdaModel.cpp: train, calculateMetric", "src/Model/Parametric/QdaModel.cpp: train, calculateMetric", "src/Model/Parametric/NaiveBayesModel.cpp: train, logLikelihoodContinuous", "src/InstanceList/InstanceList.cpp: covariance, standardDeviation", "src/Model/Parametric/GaussianModel.cpp: predict", "src/Model/Parametric/KMeansModel.cpp: train, calculateMetric", "src/Model/NonParametric/KnnModel.cpp: nearestNeighbors, predict"]}
{"id": "C191", "title": "Every weight of a network starts from a random number of its own", "statement": "The weights of a network are set to random numbers before training, each to a number of its own, so that the layers do not depend on each other. So for the one layer of a perceptron. Not so for the multi-layer perceptron, the auto-encoder and the deep network: the engine is copied, or made anew from the seed, for each layer, so that all the layers get the same numbers from the first one on, and layers of the same size are equal. A deep network with tanh keeps them however long it is trained.", "quantifier": "every seed and engine, every training list, all sizes of layers", "why_tests_cant": "all seeds and sizes: a test sees that the numbers look random", "anchors": ["src/Model/NeuralNetwork/NeuralNetworkModel.cpp: allocateLayerWeights", "src/Model/NeuralNetwork/MultiLayerPerceptronModel.cpp: allocateWeights", "src/Model/NeuralNetwork/DeepNetworkModel.cpp: allocateWeights", "src/Model/NeuralNetwork/AutoEncoderModel.cpp: allocateWeights", "src/Model/NeuralNetwork/LinearPerceptronModel.cpp: train"]}
{"id": "C192", "title": "A composite instance is answered with one of its possible classes", "statement": "An instance that comes with a list of possible classes is answered with a class of that list, if it is answered at all. So for dummy, random, nearest mean, naive Bayes, LDA, QDA, nearest neighbours, trees, ensembles with a tree and networks. Not so for the support vector machine and the soft decision tree, which do not look at the list: if the class they give to the plain instance is not on it, they answer it all the same.", "quantifier": "every state of every classifier, every instance, every list of possible classes", "why_tests_cant": "all states and all lists: tests use plain instances, or lists that contain the right answer", "anchors": ["src/Model/Parametric/GaussianModel.cpp: predict", "src/Model/NonParametric/KnnModel.cpp: predict", "src/Model/DecisionTree/DecisionTree.cpp: predict", "src/Model/Ensemble/TreeEnsembleModel.cpp: predict", "src/Model/NeuralNetwork/NeuralNetworkModel.cpp: predict", "src/Model/Svm/SvmModel.cpp: predict", "src/Model/DecisionTree/SoftDecisionTree.cpp: predict", "src/Model/DummyModel.cpp: predict", "src/Model/RandomModel.cpp: predict", "src/Instance/CompositeInstance.cpp: getPossibleClassLabels"]}
{"id": "C193", "title": "Ruling out other classes does not change an answer", "statement": "If an instance is answered with class c and is then asked again together with possible classes that include c, the answer is c again, or a possible class that does just as well. So for dummy, nearest mean, naive Bayes, LDA and QDA (if some class has a score), trees, networks with proper outputs, one nearest neighbour, and k nearest neighbours if the classes of all k are possible; the support vector machine and the soft decision tree ignore the list. Not so for several nearest neighbours (instances of impossible classes are skipped, and others take their places), for ensembles (a tree whose class is ruled out changes its vote) and for LDA when no class has a score.", "quantifier": "every trained state, every instance, every list of possible classes that contains the answer", "why_tests_cant": "all lists of possible classes and all states", "anchors": ["src/Model/Parametric/GaussianModel.cpp: predict", "src/Model/NonParametric/KnnModel.cpp: nearestNeighbors", "src/Model/DecisionTree/DecisionTree.cpp: predict", "src/Model/Ensemble/TreeEnsembleModel.cpp: predict", "src/Model/NeuralNetwork/NeuralNetworkModel.cpp: predictWithCompositeInstance", "src/Model/Svm/SvmModel.cpp: predict", "src/Model/DecisionTree/SoftDecisionTree.cpp: predict"]}
{"id": "C194", "title": "The order of the folds does not matter to a statistical test", "statement": "If the folds of two experiments are listed in another order, the same for both, a test gives the same statistic and the same result: for the sign test and the paired t test any order, for the combined 5x2 F and t tests any order that keeps the two folds of a repetition together. Not so for the 5x2 paired t test, which takes its numerator from the first fold alone: if the two folds of the first repetition change places the statistic can drop from the square root of 10 to 0.", "quantifier": "all pairs of experiments, all reorderings; the sign test with any numbers, the others in exact arithmetic", "why_tests_cant": "all reorderings of all results", "anchors": ["src/StatisticalTest/Sign.cpp: compare", "src/StatisticalTest/Pairedt.cpp: testStatistic", "src/StatisticalTest/Combined5x2f.cpp: testStatistic", "src/StatisticalTest/Combined5x2t.cpp: testStatistic", "src/StatisticalTest/Paired5x2t.cpp: testStatistic"]}
{"id": "C195", "title": "Statistical tests do not depend on the unit of the error rates", "statement": "If all error rates of two experiments are multiplied by the same positive number (per cent instead of fractions) and shifted by the same number, each of the five tests gives the same statistic, the same p-value and the same refusals.", "quantifier": "all pairs of experiments, all positive factors, all shifts, in exact arithmetic", "why_tests_cant": "all factors, shifts and results", "anchors": ["src/StatisticalTest/Sign.cpp: compare", "src/StatisticalTest/Pairedt.cpp: testStatistic, compare", "src/StatisticalTest/Combined5x2f.cpp: testStatistic, compare", "src/StatisticalTest/Combined5x2t.cpp: testStatistic, compare", "src/StatisticalTest/Paired5x2t.cpp: testStatistic, compare"]}
{"id": "C196", "title": "The order of the test instances does not matter", "statement": "Testing a classifier on the same instances in another order gives exactly the same accuracy, error rate and confusion matrix; precision, recall and F-measure of each class are the same, at the place of the class in the list of labels, and in exact arithmetic also the weighted F-measure.", "quantifier": "every classifier, every list of test instances, every order; any numbers", "why_tests_cant": "all orders of all test sets", "anchors": ["src/Model/Model.cpp: test", "src/Model/ValidatedModel.cpp: testClassifier", "src/Performance/ConfusionMatrix.cpp: classify, precision, recall, fMeasure, weightedFMeasure", "src/InstanceList/InstanceList.cpp: getUnionOfPossibleClassLabels"]}
{"id": "C197", "title": "Every attribute type has an influence", "statement": "A classifier can use attributes of every type; in particular, data converted by LaryToBinary keep what the discrete attributes say about the class. Not so: two training sets that differ in the values of binary attributes only give the same trained model, and two instances that differ in the values of binary attributes only get the same answer and the same class probabilities, for decision trees, stumps, bagging, random forests, nearest neighbours with either distance, nearest mean, naive Bayes, LDA, QDA, the four networks, support vector machines and soft decision trees. A set that a tree classifies without error is, after LaryToBinary, answered with one class for all instances.", "quantifier": "all training sets, all queries, all classifiers that read attributes; any numbers", "why_tests_cant": "all data and all classifiers", "anchors": ["src/Model/DecisionTree/DecisionNode.cpp: DecisionNode", "src/DistanceMetric/EuclidianDistance.cpp: distance", "src/Instance/Instance.cpp: toVector", "src/Filter/LaryToBinary.cpp: convertInstance", "src/Model/Parametric/NaiveBayesModel.cpp: logLikelihoodContinuous, logLikelihoodDiscrete", "src/InstanceList/InstanceList.cpp: attributeDistribution, allAttributesDistribution"]}
{"id": "C198", "title": "Every classifier gives class probabilities with its answer", "statement": "For an instance a classifier answers, predictProbability gives a map in which the answer has a probability and no class has a larger one. This holds for the dummy and the random classifier, nearest neighbours, decision trees and stumps, bagging, random forests and networks with one real output for each class. Nearest mean, naive Bayes, LDA, QDA and support vector machines give an empty map for every instance; a soft decision tree gives an empty map if it has no split, and dereferences a null pointer otherwise.", "quantifier": "all trained classifiers of all kinds, all instances that are not composite, in exact arithmetic; the failures with any numbers", "why_tests_cant": "all classifiers, training sets and queries", "anchors": ["src/Model/Model.h: predictProbability", "src/Model/DecisionTree/SoftDecisionTree.h: SoftDecisionTree", "src/Model/DecisionTree/DecisionTree.cpp: predictProbability", "src/Model/DecisionTree/DecisionCondition.cpp: satisfy", "src/Model/Parametric/GaussianModel.h: GaussianModel", "src/Model/Svm/SvmModel.h: SvmModel"]}
{"id": "C199", "title": "A stored soft decision tree can be used again", "statement": "After serialize and loadModel a soft decision tree answers as before. Not so: what is written depends on the shape of the tree only, no weight, output or class is written; after loadModel the next prediction has undefined behaviour whatever was read; and the file of a tree without a split cannot be read at all.", "quantifier": "all soft decision trees, all files, all instances", "why_tests_cant": "all trees and all files", "anchors": ["src/Model/DecisionTree/DecisionTree.cpp: serialize, loadModel", "src/Model/DecisionTree/DecisionNode.cpp: serialize", "src/Model/DecisionTree/SoftDecisionTree.cpp: predict"]}
{"id": "C200", "title": "Sorting is asked only for what std::stable_sort can do", "statement": "Whenever instances are sorted by a number (sort(i), used by every decision tree, and the search of nearest neighbours), the comparison is a strict weak ordering of the instances to be sorted, as the C++ standard requires. This is so exactly when no number is NaN, or the numbers that are not NaN are all equal; nothing keeps NaN out: a data file with the text nan in a numeric column is accepted. Sorting by class label always meets the requirement.", "quantifier": "all instance lists, all columns of numbers, all nearest neighbour models and queries, any arithmetic with IEEE comparisons", "why_tests_cant": "all lists; a comparison that is not a strict weak ordering may go unnoticed in a test", "anchors": ["src/InstanceList/InstanceList.cpp: sort, InstanceComparator", "src/Model/NonParametric/KnnModel.cpp: nearestNeighbors", "src/Model/DecisionTree/DecisionNode.cpp: DecisionNode"]}
{"id": "C201", "title": "The order of the trees in an ensemble does not matter", "statement": "Two ensembles of the same trees in different orders give the same answer and the same class probabilities for every instance, or both fail. So an ensemble trained on the same samples in another order gives the same answers.", "quantifier": "all ensembles, all reorderings, all instances, any arithmetic", "why_tests_cant": "all ensembles and all reorderings", "anchors": ["src/Model/Ensemble/TreeEnsembleModel.cpp: predict, predictProbability", "src/Model/Ensemble/BaggingModel.cpp: train", "src/Model/Ensemble/RandomForestModel.cpp: train"]}
{"id": "C202", "title": "An indexed attribute is as good as its columns of zeros and ones", "statement": "If each indexed attribute with m values is replaced by m numbers, 1 for its index and 0 for the others, in the training data and in the query, the trained classifiers and the answers are the same. This holds for nearest neighbours with the Mahalanobis distance, the networks, support vector machines, and, in exact arithmetic, linear and quadratic discriminant analysis, decision trees with and without pruning, stumps and bagged trees; for the trees there may also be attributes of the other kinds. It fails for the Euclidean distance, which overlooks indexed attributes, for nearest mean and naive Bayes, which dereference a null pointer, and for soft decision trees, whose training throws.", "quantifier": "all training sets and queries with numbers and indexed values (trees: any attributes), all training parameters", "why_tests_cant": "all training sets, parameters and queries", "anchors": ["src/Attribute/DiscreteIndexedAttribute.cpp: continuousAttributes", "src/Instance/Instance.cpp: toVector", "src/InstanceList/InstanceList.cpp: continuousAttributeAverage, covariance, average", "src/DistanceMetric/EuclidianDistance.cpp: distance", "src/Model/DecisionTree/SoftDecisionTree.cpp: SoftDecisionTree"]}
{"id": "C203", "title": "Applying a filter a second time changes nothing", "statement": "Converting a data set with DiscreteToContinuous, LaryToBinary or DiscreteToIndexed and then with any of the three again leaves instances and data set as they were after the first conversion, although the first one left the data definition stale. Normalising normalised data changes nothing either, if every numeric column has a positive standard deviation.", "quantifier": "all data sets of distinct instance objects that fit their definition, all pairs of filters, any arithmetic (Normalize: exact arithmetic)", "why_tests_cant": "all data sets and all pairs of filters", "anchors": ["src/Filter/FeatureFilter.cpp: convert", "src/Filter/LaryFilter.cpp: removeDiscreteAttributes", "src/Filter/DiscreteToContinuous.cpp: convertInstance, convertDataDefinition", "src/Filter/LaryToBinary.cpp: convertInstance, convertDataDefinition", "src/Filter/DiscreteToIndexed.cpp: convertInstance, convertDataDefinition", "src/Filter/Normalize.cpp: convertInstance"]}
{"id": "C204", "title": "Training and test data converted separately are coded alike", "statement": "If the training data and the test data are converted with the same kind of filter, equal instances stay equal. This holds for the three filters of discrete attributes if every discrete attribute takes the same values in both data sets. It fails otherwise: each filter uses the values (for Normalize the mean and the deviation) of the data set it is given, so a value can get another column, or two different values the same code.", "quantifier": "all pairs of data sets without common objects, all three filters, any arithmetic", "why_tests_cant": "all pairs of data sets", "anchors": ["src/Filter/LaryFilter.cpp: LaryFilter", "src/Filter/FeatureFilter.cpp: convert", "src/Filter/Normalize.cpp: Normalize"]}
{"id": "C205", "title": "What pruning returns", "statement": "Pruning treats every subtree by itself: an inner node becomes a leaf exactly if it is then right at least as often on the instances of the pruning set that reach it, otherwise its children are pruned in the same way. After pruning every further cut loses right answers, pruning again changes nothing, and the order of the pruning set does not matter. The result is the best tree that can be had by cutting. The last sentence is false: nodes are tried from the root downwards.", "quantifier": "all trees, all non-empty pruning sets with plain and composite instances (exact arithmetic; order: any arithmetic)", "why_tests_cant": "all trees of any depth and all pruning sets", "anchors": ["src/Model/DecisionTree/DecisionTree.cpp: prune, pruneNode", "src/Model/DecisionTree/DecisionNode.cpp: predict", "src/Model/ValidatedModel.cpp: testClassifier"]}
{"id": "C206", "title": "A call that throws leaves the object as it was", "statement": "If train or convert throws an exception, the classifier, forest or data it was called on is as before the call. This holds for decision trees without pruning, for decision stumps, and for LDA and QDA when they refuse a list at once; LDA never loses its weights. It fails for naive Bayes, nearest mean, LDA's class frequencies, pruned trees, bagging, random forests and filters, where the part done before the exception stays.", "quantifier": "all objects with any history, all training lists and data sets, every point at which the call can throw, any arithmetic", "why_tests_cant": "every exception point of every call", "anchors": ["src/Model/Parametric/NaiveBayesModel.cpp: train, trainContinuousVersion", "src/Model/Parametric/KMeansModel.cpp: train", "src/Model/Parametric/LdaModel.cpp: train", "src/Model/Parametric/QdaModel.cpp: train", "src/Model/DecisionTree/DecisionTree.cpp: train, pruneNode", "src/Model/DecisionTree/DecisionStump.cpp: train", "src/Model/Ensemble/BaggingModel.cpp: train", "src/Model/Ensemble/RandomForestModel.cpp: train", "src/Filter/FeatureFilter.cpp: convert"]}
{"id": "C207", "title": "Linear classifiers answer between two instances what they answer at both", "statement": "If linear discriminant analysis, the nearest-mean classifier with the Euclidean distance, the linear perceptron or a support vector machine with the linear kernel and two classes gives the same answer to two numeric instances, it gives this answer to every instance on the straight line between them.", "quantifier": "every LDA object and every perceptron with any weights, every nearest-mean classifier trained on numbers, every two-class linear support vector machine trained by a new object whatever the solution of its problem is, all pairs of instances and all points between them, ties included (exact arithmetic; scores above -DBL_MAX at both ends)", "why_tests_cant": "all pairs of points and all points between them", "anchors": ["src/Model/Parametric/LdaModel.cpp: calculateMetric", "src/Model/Parametric/GaussianModel.cpp: predict", "src/Model/Parametric/KMeansModel.cpp: calculateMetric", "src/DistanceMetric/EuclidianDistance.cpp: distance", "src/Model/NeuralNetwork/LinearPerceptronModel.cpp: calculateOutput", "src/Model/NeuralNetwork/NeuralNetworkModel.cpp: predict", "src/Model/Svm/SvmModel.cpp: predict"]}
{"id": "C208", "title": "Classes of the same spread", "statement": "If all classes have the same covariance matrix, linear and quadratic discriminant analysis give the same answers. If moreover the attributes are uncorrelated with the same variance and the classes have the same size, both agree with the nearest-mean classifier. If all attributes have the same standard deviation in all classes and the classes have the same size, naive Bayes agrees with the nearest-mean classifier.", "quantifier": "all numeric training lists with two or more instances of every class, plain and composite queries (exact arithmetic)", "why_tests_cant": "all training lists and all queries", "anchors": ["src/Model/Parametric/LdaModel.cpp: train, calculateMetric", "src/Model/Parametric/QdaModel.cpp: train, calculateMetric", "src/Model/Parametric/NaiveBayesModel.cpp: logLikelihoodContinuous", "src/Model/Parametric/KMeansModel.cpp: train, calculateMetric"]}
{"id": "C209", "title": "Numbers near the ends of the range of double", "statement": "Finite values are handled correctly whatever their magnitude: training a decision tree returns, the mean of a column is finite, the standard deviation of a column with different values is positive, and the Euclidean distance of two instances is finite and 0 only if they agree. False for very large and very small values: sums of two values that overflow give an infinite split value and a tree that is never finished, the mean of two values of 2^1023 or more is infinite, values below 2^-539 have deviation 0, differences of 2^-538 or less give distance 0 and differences of 2^512 or more an infinite one. True within stated ranges.", "quantifier": "every list of instances with finite doubles (53-bit significands, gradual underflow, overflow to infinity), every pair of instances", "why_tests_cant": "all magnitudes of all values, with rounding, underflow and overflow at every operation", "anchors": ["src/Model/DecisionTree/DecisionNode.cpp: DecisionNode, createChildrenForContinuous", "src/InstanceList/InstanceList.cpp: attributeAverage, attributeStandardDeviation", "src/DistanceMetric/EuclidianDistance.cpp: distance"]}
{"id": "C210", "title": "The random generator of the process", "statement": "What a call that uses random numbers returns does not depend on the calls made before. True of training soft decision trees: with the same seed and data they come out alike whatever the program has done before, and the generator is left in the same state, (2K + d + 1)(12 n + 7) numbers after the seed for K classes, d attributes and n splits. False of random classifiers: all of them draw consecutive numbers of the one generator of the process (each answer is the class at position number mod number of classes), so an answer depends on how many questions any of them has been asked before; and training a soft decision tree resets them, so that after two trainings with the same seed all answers repeat.", "quantifier": "every generator and state, every sequence of questions to random classifiers and of trainings of soft decision trees", "why_tests_cant": "all sequences of calls and all generators", "anchors": ["src/Model/RandomModel.cpp: predict", "src/Model/DecisionTree/SoftDecisionTree.cpp: train", "src/Model/DecisionTree/SoftDecisionNode.cpp: getRandomValue, SoftDecisionNode"]}
{"id": "C211", "title": "Training and splitting leave the list they are given as it was", "statement": "The instance list passed to train or to a random split is the same afterwards. It always contains the same instances, and training and testing of all classifiers but one, and stratified splits, leave it untouched. False for support vector machines, which sort it by class, and for splits without stratification, which shuffle it: a nearest-neighbour classifier trained on the list afterwards can answer otherwise than one trained before. Another support vector machine, the dummy classifier and, in exact arithmetic, unpruned trees, stumps, nearest means and discriminants do not notice.", "quantifier": "every list and every sequence of trainings, tests and splits of it", "why_tests_cant": "all sequences of uses of a shared list", "anchors": ["src/Model/Svm/SvmModel.cpp: train", "src/InstanceList/Partition.cpp: Partition", "src/InstanceList/InstanceList.cpp: sort, shuffle", "src/Model/DecisionTree/DecisionNode.cpp: DecisionNode"]}
{"id": "C212", "title": "Training a network for more epochs", "statement": "If training a network with n + m epochs succeeds, so does training it with n epochs on the same data and seed, and the longer training does not give a network that is worse on the validation part: it gives the same network, or one with a strictly greater validation accuracy (auto-encoder: a strictly smaller validation error). True unless the shorter training ended with the initial random weights; false for these, which are never compared with the others, so that one epoch can turn a network that gets two thirds of the validation part right into one that gets one third right.", "quantifier": "every network and every data set, seed and pair of numbers of epochs", "why_tests_cant": "all pairs of numbers of epochs and all data", "anchors": ["src/Model/NeuralNetwork/LinearPerceptronModel.cpp: train", "src/Model/NeuralNetwork/MultiLayerPerceptronModel.cpp: train", "src/Model/NeuralNetwork/DeepNetworkModel.cpp: train", "src/Model/NeuralNetwork/AutoEncoderModel.cpp: train"]}
{"id": "C213", "title": "The order of the instances in the epochs", "statement": "In every epoch a network is shown every instance of the learning part exactly once, in an order drawn anew. The first half is true of all networks. The second is false: the same permutation is applied again in every epoch, so the orders start again after some number of epochs, and of three or more different instances there is an order that no epoch uses, for every seed and however many epochs there are.", "quantifier": "every network, data set, permutation the seed may stand for and number of epochs", "why_tests_cant": "all seeds and all numbers of epochs", "anchors": ["src/Model/NeuralNetwork/LinearPerceptronModel.cpp: train", "src/Model/NeuralNetwork/MultiLayerPerceptronModel.cpp: train", "src/Model/NeuralNetwork/DeepNetworkModel.cpp: train", "src/Model/NeuralNetwork/AutoEncoderModel.cpp: train", "src/InstanceList/InstanceList.cpp: shuffle"]}
{"id": "C214", "title": "Data of one type is learned, and every instance of the type is answered", "statement": "Trained on a non-empty list of instances whose attributes have the same types, a classifier does not fail, and afterwards every instance with attributes of these types is answered: a plain one with a class of the training list, one with possible classes with one of them. Whatever the values are, also if scores are infinite or NaN. True for the most frequent class, random classes, nearest neighbours (k at least 1; Euclidean: all types; Mahalanobis: numbers), nearest mean (nominal and numeric columns in any mixture), naive Bayes on nominal or on numeric columns, LDA and QDA on numeric columns. False for naive Bayes on a table with both nominal and numeric columns: reading the other kind of column is undefined behaviour, in training or in prediction.", "quantifier": "every non-empty training list of one type, every instance of the type, any arithmetic (no law of numbers is used)", "why_tests_cant": "all data sets, all values, infinities and NaN included, and all mixtures of column types", "anchors": ["src/Model/DummyModel.cpp: predict", "src/Model/RandomModel.cpp: predict", "src/Model/NonParametric/KnnModel.cpp: predict", "src/Model/Parametric/KMeansModel.cpp: train", "src/Model/Parametric/NaiveBayesModel.cpp: train", "src/Model/Parametric/NaiveBayesModel.cpp: calculateMetric", "src/Model/Parametric/LdaModel.cpp: train", "src/Model/Parametric/QdaModel.cpp: train", "src/Model/Parametric/GaussianModel.cpp: predict"]}
{"id": "C215", "title": "Trees cut the space of instances into boxes", "statement": "If two instances come to the same place of a decision tree, so does every instance in the box between them (each numeric value between the two, each other value one of the two), and it gets the same class and the same probabilities. In a trained tree every instance of the type comes to some place. A stump answers every instance in the box between two instances like one of the two, so its classes have no gaps. It does not extend to the answers of a whole tree: two instances at different places can be answered alike and one between them differently.", "quantifier": "every tree, every two instances, every instance in the box between them, any arithmetic with IEEE-754 comparisons (trained trees end somewhere: exact arithmetic)", "why_tests_cant": "a continuum of instances for every tree", "anchors": ["src/Model/DecisionTree/DecisionCondition.cpp: satisfy", "src/Model/DecisionTree/DecisionNode.cpp: predict", "src/Model/DecisionTree/DecisionNode.cpp: predictProbabilityDistribution", "src/Model/DecisionTree/DecisionStump.cpp: train", "src/Model/DecisionTree/DecisionTree.cpp: predict"]}
{"id": "C216", "title": "Trees take numbers beyond those of the training data like the last ones seen", "statement": "Decision trees (pruned or not), random forests, bagging and stumps do not extrapolate: if a number of an instance is at least the greatest (at most the least) number its column had in training, replacing it by any other such number, for instance by that greatest (least) number itself, changes neither the class nor the probabilities answered. Several columns can be replaced at once.", "quantifier": "every training list of one type, every pruning split, every bootstrap, every attribute subset, every instance and every replacement; any arithmetic with IEEE-754 comparisons and no NaN in the training data (stumps: exact arithmetic)", "why_tests_cant": "infinitely many numbers beyond the data, for every data set", "anchors": ["src/Model/DecisionTree/DecisionNode.cpp: createChildrenForContinuous", "src/Model/DecisionTree/DecisionCondition.cpp: satisfy", "src/Model/DecisionTree/DecisionTree.cpp: train", "src/Model/DecisionTree/DecisionStump.cpp: train", "src/Model/Ensemble/RandomForestModel.cpp: train", "src/Model/Ensemble/BaggingModel.cpp: train"]}
{"id": "C217", "title": "On the way to the nearest neighbour it remains the nearest", "statement": "With one neighbour, if the training instance nearest to a query is y, then after moving the query any part of the straight way towards y (numbers in proportion, all other attributes being those of y already) y is still the nearest, also if there are ties, and class and probabilities are the same. So the region of each training instance is star-shaped around it. With three neighbours the answer can change on the way.", "quantifier": "every training list, query, nearest instance and part of the way between 0 and 1; Euclidean distance on all column types, Mahalanobis distance with a positive definite matrix on numeric columns; exact arithmetic", "why_tests_cant": "a continuum of positions for every data set, and ties between training instances", "anchors": ["src/Model/NonParametric/KnnModel.cpp: nearestNeighbors", "src/Model/NonParametric/KnnModel.cpp: predict", "src/DistanceMetric/EuclidianDistance.cpp: distance", "src/DistanceMetric/MahalanobisDistance.cpp: distance"]}
{"id": "C218", "title": "Only near training instances count for nearest neighbours", "statement": "If two training lists contain the same instances, in the same order, up to some distance from the query, and at least k that may vote are among these, then the k nearest neighbours of the query, its class and its probabilities are the same, whatever else the lists contain. In particular a training instance farther away than the k neighbours can be added anywhere or removed.", "quantifier": "every two training lists, every query, distance function, k and radius; any arithmetic with IEEE-754 comparisons, distances not NaN", "why_tests_cant": "the far part of the training list is arbitrary", "anchors": ["src/Model/NonParametric/KnnModel.cpp: nearestNeighbors", "src/Model/NonParametric/KnnModel.cpp: predict", "src/Model/NonParametric/KnnModel.cpp: predictProbability"]}
{"id": "C219", "title": "Lower errors speak for a classifier in the statistical tests", "statement": "If the error rates of the first classifier are lower in some or all experiments, and those of the second higher, a test never moves towards the conclusion that the first one is worse. True for the sign test: its p-value for 'the first is not worse' does not decrease. True for the paired t test if all errors are lowered by the same amount. True for the two 5x2 t tests if in each repetition the errors of both folds are lowered by the same amount. False for the paired t test in general: lowering the error of the better classifier in one experiment can bring the statistic closer to zero.", "quantifier": "all pairs of experiments for which the tests give a result, all improvements", "why_tests_cant": "all error rates and all numbers of experiments", "anchors": ["src/StatisticalTest/Sign.cpp: compare", "src/StatisticalTest/Pairedt.cpp: testStatistic"]}
{"id": "C220", "title": "A column computed from an earlier column adds nothing to a tree", "statement": "Decision trees (grown with or without pruning), stumps and bagged trees answer the same, with the same class probabilities, if the training instances have one more column that is computed from an earlier column: a copy, other units, a column of groups of the values of a nominal column, rounded numbers. Whatever an instance asked about has in the additional column does not matter. Classifiers that add up the columns are different: k nearest neighbours and naive Bayes count a copied column twice.", "quantifier": "all training data of one type, all positions, all ways of computing the column (any function of a nominal column, any rising or falling function of numbers, any renumbering of indices), all instances asked about", "why_tests_cant": "all data sets and all functions; needs the concavity of the entropy for columns that merge values", "anchors": ["src/Model/DecisionTree/DecisionNode.cpp: entropyForDiscreteAttribute", "src/Model/DecisionTree/DecisionTree.cpp: train", "src/Model/NonParametric/KnnModel.cpp: nearestNeighbors", "src/Model/Parametric/NaiveBayesModel.cpp: logLikelihoodDiscrete"]}
{"id": "C221", "title": "Discriminant analysis does not depend on the axes", "statement": "Numeric data may be described along other axes: the vector v of the numbers of every instance, in training and in questions, becomes A v + b. For any invertible matrix A, linear and quadratic discriminant analysis predict the same classes, and so do k nearest neighbours with the Mahalanobis distance when its matrix is the inverse of the covariance matrix the library computes from the data so described. For axes turned, mirrored or measured in another common unit, k nearest neighbours and nearest means with the Euclidean distance answer the same. Decision trees depend on the axes, as they split along those of the description, and naive Bayes does, as it looks at each number by itself.", "quantifier": "all numeric training data, all invertible matrices and all shifts, all numbers of neighbours, all numeric instances asked about", "why_tests_cant": "infinitely many coordinate systems for infinitely many data sets; the statement relates two trainings and two questions", "anchors": ["src/Model/Parametric/LdaModel.cpp: calculateMetric", "src/Model/Parametric/QdaModel.cpp: calculateMetric", "src/DistanceMetric/MahalanobisDistance.cpp: distance", "src/DistanceMetric/EuclidianDistance.cpp: distance", "src/InstanceList/InstanceList.cpp: covariance"]}
{"id": "C222", "title": "Filters that make no difference to a classifier", "statement": "After Normalize::convert() decision trees (grown with or without pruning), stumps, bagging, random forests, naive Bayes and linear and quadratic discriminant analysis, trained on any part of the data set, give the answers they give without the filter. After Pca::convert() with all components k nearest neighbours, nearest means, discriminant analysis and support vector machines with any kernel do. k nearest neighbours depend on normalising: the scale of the columns decides which instance is the nearest.", "quantifier": "all data sets of two instances or more without repeated objects whose columns of numbers are not constant, all parts of them used for training, all instances asked about", "why_tests_cant": "relates two pipelines for every data set and every choice of training part", "anchors": ["src/Filter/Normalize.cpp: convertInstance", "src/Filter/Pca.cpp: convertInstance", "src/Model/DecisionTree/DecisionTree.cpp: train", "src/Model/Parametric/LdaModel.cpp: calculateMetric", "src/Model/Parametric/NaiveBayesModel.cpp: train", "src/Model/NonParametric/KnnModel.cpp: nearestNeighbors"]}
{"id": "C223", "title": "A support vector machine sees its data only through the kernel", "statement": "Change the numbers of all instances and the parameters of the kernel in any way that multiplies the value of the kernel for every two instances by a common factor (for example 1), divide the penalty by this factor, and the machine trained on the changed data gives the changed queries the answers (or errors) the original machine gives the original ones. So turning or reflecting the data around the origin makes no difference with any kernel, and enlarging them s times is made up for by dividing the penalty (linear kernel) or gamma (polynomial, radial and sigmoid kernel) by s squared; with the radial kernel the data may also be moved. The unit of a single column, however, matters.", "quantifier": "all training sets and queries of numbers, all kernels and parameters, all changes that keep the kernel values, whatever number of rounds the solver takes", "why_tests_cant": "relates two runs of an iterative solver, with shrinking and index exchanges, for every data set and every change", "anchors": ["src/Model/Svm/SvmModel.cpp: train", "src/Model/Svm/SvmModel.cpp: predict", "src/Model/Svm/Solver.cpp: solve", "src/Model/Svm/Kernel.cpp: function"]}
{"id": "C224", "title": "A decision tree sees only the order of the numbers", "statement": "Put the numbers of every column on another scale by any strictly increasing function (logarithms, cubes, ranks). A decision tree trained without pruning, or a decision stump, then tests the same attributes at the same places, has the same leaves with the same class distributions, and answers every training instance with the same class and the same class probabilities. Bagging and random forests with the same random draws consist of trees of the same form that answer the instances of their own samples alike. Instances between the training values may be answered differently, since thresholds lie halfway between two values.", "quantifier": "all training sets of instances of the same attribute types, all strictly increasing functions for each column, all attribute subsets and bootstrap draws", "why_tests_cant": "quantifies over all increasing functions and all data sets; a test tries one function on one data set", "anchors": ["src/Model/DecisionTree/DecisionNode.cpp: DecisionNode", "src/Model/DecisionTree/DecisionTree.cpp: train", "src/Model/DecisionTree/DecisionStump.cpp: train", "src/Model/Ensemble/BaggingModel.cpp: train", "src/Model/Ensemble/RandomForestModel.cpp: train"]}
{"id": "C225", "title": "A network sees its inputs only through inner products", "statement": "Replace every training instance and the instance asked about by instances of the same classes such that any two of them have the same inner product as before (turned axes, reordered columns, a further column of zeros; the number of columns may change). If the initial weights of the first layer give the same weighted sums and the other initial weights are the same, then the linear perceptron, the multi-layer perceptron with each activation function and the deep network give the same predictions and the same probabilities after training, with any number of epochs, learning rate and validation split, or fail with the same error.", "quantifier": "all training sets of numbers, all such replacements, all parameters and initial weights", "why_tests_cant": "quantifies over all replacements and all training runs; a test sees one run from one set of initial weights", "anchors": ["src/Model/NeuralNetwork/LinearPerceptronModel.cpp: train", "src/Model/NeuralNetwork/MultiLayerPerceptronModel.cpp: train", "src/Model/NeuralNetwork/DeepNetworkModel.cpp: train", "src/Model/NeuralNetwork/NeuralNetworkModel.cpp: createInputVector, calculateHidden, calculateRMinusY, predict, predictProbability"]}
{"id": "C226", "title": "The numbering of the hidden nodes does not matter", "statement": "Let a multi-layer perceptron, a newly created deep network or an autoencoder start from initial weights that differ from those of another only in the numbering of the hidden nodes of each hidden layer (rows of the matrix into the layer and columns of the matrix out of it reordered alike). After training with the same data, parameters and random orders both give the same predictions and the same probabilities (the autoencoder: the same reconstruction) for every instance of numbers, or fail with the same error.", "quantifier": "all training sets of numbers, all numberings of the hidden nodes, all activation functions, parameters and initial weights", "why_tests_cant": "quantifies over all permutations and all training runs; a test compares two runs at most", "anchors": ["src/Model/NeuralNetwork/MultiLayerPerceptronModel.cpp: train", "src/Model/NeuralNetwork/DeepNetworkModel.cpp: train, calculateOutput", "src/Model/NeuralNetwork/AutoEncoderModel.cpp: train, predictInput, testAutoEncoder", "src/Model/NeuralNetwork/NeuralNetworkModel.cpp: calculateHidden, calculateForwardSingleHiddenLayer, calculateRMinusY, predict, predictProbability"]}
{"id": "C227", "title": "Short descriptions tell what they describe", "statement": "The text of a data set (to_string with a name) determines its number of instances, of distinct classes, of attributes, of discrete and of continuous attributes; the text of a neighbour determines its class and its distance.", "quantifier": "all data sets and names, all neighbours and distances", "why_tests_cant": "quantifies over all pairs of data sets and of distances", "anchors": ["src/DataSet/DataSet.cpp: to_string, sampleSize, classCount, attributeCount, discreteAttributeCount, continuousAttributeCount", "src/Model/NonParametric/KnnInstance.cpp: to_string"]}
{"id": "C228", "title": "Only the order of the distances counts for the nearest neighbours", "statement": "Two nearest-neighbour classifiers whose training instances have the same classes in the same order, and for whose queries the same instances are nearer, have corresponding neighbours and answer with the same class and the same probabilities; in particular an increasing function of the distance, or turning all points about the origin, changes no answer. Turning all points does not change the answers of the nearest-mean classifier either.", "quantifier": "all training lists, queries, numbers of neighbours, distance functions and increasing functions of them, all data with the same inner products", "why_tests_cant": "quantifies over all data and all increasing functions of the distance", "anchors": ["src/Model/NonParametric/KnnModel.cpp: nearestNeighbors, predict, predictProbability", "src/DistanceMetric/EuclidianDistance.cpp: distance", "src/Model/Parametric/KMeansModel.cpp: train, calculateMetric"]}
{"id": "C229", "title": "Performance measures do not depend on the names of the classes", "statement": "When the classes are given other names, still different from each other and in any alphabetical order, the accuracy, the precision, recall and F-measure of each class and the weighted F-measure of a confusion matrix stay as they were, also in double precision; when actual and predicted class are exchanged in all classifications, accuracy and F-measures stay and precision and recall are exchanged.", "quantifier": "all histories of classifications, all lists of labels, all renamings that keep different names different; for the exchange of precision and recall all labels occur as actual and as predicted class", "why_tests_cant": "quantifies over all histories and renamings", "anchors": ["src/Performance/ConfusionMatrix.cpp: classify, getAccuracy, precision, recall, fMeasure, weightedFMeasure, columnSum, sumOfElements, trace"]}
