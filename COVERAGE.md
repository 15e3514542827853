# Which code is modelled

Generated by `tools/coverage.py` from the citations in the doc comments of the Lean files.  A function is listed
with the definitions that cite lines of it; functions without a model are listed with the reason.

206 of 208 functions have a model.  `main.go`, which only calls `cmd.Execute`, and the test helpers in
`featselect/testfeatselect` are not listed.

## cmd/bnb.go

| lines | function | model |
|---|---|---|
| 56-64 | `init` | `bnbOpts` |
| 66-72 | `saveHighscoreList` | `BnbSearches`, `saveHighscoreList` |
| 74-76 | `setSearchFinished` | `BnbSearch`, `BnbSearches` |
| 78-125 | `findOptimalSolution` | `BnbMain`, `BnbStep`, `bnbInit`, `bnbFirst`, `BnbSearches`, `commandData` |

## cmd/lasso.go

| lines | function | model |
|---|---|---|
| 54-67 | `init` | `lassoOpts` |
| 69-123 | `lassoFit` | `commandData`, `larsGapStart`, `LassoCov`, `LassoRawPath`, `LassoFit`, `LassoCdFl`, `lassoFileToJson`, `LarsStart`, `larsStart` |

## cmd/root.go

| lines | function | model |
|---|---|---|
| 46-51 | `Execute` | `CommandRun` |
| 53-65 | `init` | `commonOpts` |
| 68-91 | `initConfig` | not modelled: wiring of the command line library |

## cmd/sasearch.go

| lines | function | model |
|---|---|---|
| 56-63 | `init` | `saOpts` |
| 65-76 | `saSearch` | `commandData`, `saFile`, `saCommandInput`, `SaCommand` |

## featselect/cohens_kappa.go

| lines | function | model |
|---|---|---|
| 26-44 | `GetCohensKappa` | `CohenTarget.kappaLoop`, `CohenTarget.kappa`, `Shuffles`, `CohenTargetFl.sample`, `CohenTargetFl.kappa`, `kappaHalves`, `getCohensKappa`, `getCohensKappaFl`, `swapAt`, `goShuffle`, `shuffledIndices`, `sampledKappa` |
| 54-59 | `CohensKappaWorker` | `cohenKappaOf`, `cohenKappaOfFl`, `cohenComp` |
| 62-121 | `CalculateCohenSequence` | `cohenSummary`, `cohenResult`, `cohenResultFl`, `CohenMain`, `cohenInit`, `cohenReceive`, `cohenAct`, `cohenWorkers`, `cohenMem` |

## featselect/covarianceMatrix.go

| lines | function | model |
|---|---|---|
| 18-24 | `Empirical.Get` | `CovKind`, `empiricalCov`, `empiricalCovFl`, `lassoProblemRnd` |
| 30-38 | `Identity.Get` | `CovKind`, `identityCov`, `identityCovFl` |
| 49-56 | `NewSparseThreshold` | `CovKind`, `LassoCov` |
| 59-69 | `SparseThresholded.Get` | `CovKind`, `sparseThresholdedGet`, `pathMem`, `cohenMem` |

## featselect/criteria.go

| lines | function | model |
|---|---|---|
| 17-19 | `Aic` | `aic`, `aicFl`, `withLog`, `aicRnd` |
| 23-30 | `Aicc` | `aicc`, `aiccExt`, `aiccFl`, `withLog`, `aiccRnd` |
| 33-35 | `Bic` | `bic`, `bicFl`, `withLog` |
| 41-66 | `bounds` | `fitModel`, `boundsRssLcs`, `boundsRssGcs`, `bounds`, `boundsRssLcsFl`, `boundsRssGcsFl`, `boundsAICCFl`, `rssOfModel`, `computedBounds` |
| 69-71 | `BoundsAIC` | `boundsAIC` |
| 74-76 | `BoundsAICC` | `boundsAICC`, `defaultMaxQueue` |

## featselect/csvIO.go

| lines | function | model |
|---|---|---|
| 26-31 | `Dataset.GetFeatName` | `Dataset.getFeatName` |
| 35-45 | `Dataset.FeatNoByName` | `featNoLoop`, `Dataset.featNoByName` |
| 49-71 | `Dataset.GetSubset` | `Dataset.getSubset` |
| 74-91 | `Dataset.IsEqual` | `isEqual` |
| 94-103 | `Dataset.Copy` | `Dataset.copy` |
| 106-114 | `ReadCSV` | `readCSV` |
| 119-167 | `ParseCSV` | `parseFields`, `parseRow`, `parseRecords`, `parseCSV` |
| 170-177 | `Dataset.Save` | `Dataset.save` |
| 180-200 | `Dataset.SaveHandle` | `saveRow`, `saveRecords`, `saveHandle` |
| 212-228 | `Dataset.MarshalJSON` | `jsonFill`, `toJSONDataset`, `LassoFileJson` |
| 231-243 | `Dataset.UnmarshalJSON` | `ofJSONDataset`, `lassoLarsPathFromBytes` |

## featselect/fit.go

| lines | function | model |
|---|---|---|
| 11-49 | `Fit` | `SaInputGap`, `fitModelGap`, `invSigma`, `fit`, `Blas`, `fitFl` |
| 52-59 | `PredictOne` | `predictOne`, `dotLoop`, `predictOneRnd` |
| 63-68 | `Predict` | `SaInputGap`, `fitModelGap`, `Blas`, `predictFl`, `predict` |
| 75-87 | `Rss` | `fitModelGap`, `rssFl`, `rss`, `rssLoop`, `rssRnd` |
| 91-99 | `DenumMatrixGcv` | `denumMatrixGcv` |
| 102-108 | `Gcv` | `gcv` |

## featselect/highscore.go

| lines | function | model |
|---|---|---|
| 15-20 | `NewHighscore` | `newHighscore`, `newConf` |
| 23-49 | `Highscore.Insert` | `insertBefore`, `Highscore.insertTail`, `Highscore.insert`, `LMem.findSmaller`, `LMem.insertTail`, `LMem.insert`, `rawInsertBefore`, `rawInsertTail`, `RawHighscore.insert` |
| 52-54 | `Highscore.Len` | `Highscore.len`, `RawHighscore.insert` |
| 57-64 | `Highscore.BestScore` | `Highscore.bestScore`, `ReadBest` |
| 67-75 | `Highscore.Scores` | `Highscore.scores` |
| 78-92 | `Highscore.MarshalJSON` | `HighscoreJson`, `highscoreToJson`, `ReadItems`, `ReadAll` |
| 95-110 | `Highscore.UnmarshalJSON` | `highscoreOfJson`, `RawHighscore.insertAll`, `HighscoreAux`, `readMembers`, `readHighscore` |
| 112-123 | `Highscore.Equal` | `highscoreEqualLoop`, `highscoreEqual` |

## featselect/lassoCorrections.go

| lines | function | model |
|---|---|---|
| 19-21 | `PureLasso.Deriv` | `pureLasso`, `pureLassoFl` |
| 24-24 | `PureLasso.Update` | `pureLasso`, `pureLassoFl` |
| 34-39 | `NewCLasso` | `cLasso`, `newCLassoBeta` |
| 42-44 | `CLasso.Update` | `cLasso`, `pathMem` |
| 48-60 | `CLasso.Deriv` | `cLasso`, `pathMem` |
| 68-70 | `ElasticNet.Deriv` | `elasticNet` |
| 73-73 | `ElasticNet.Update` | `elasticNet` |

## featselect/lassoCrdDesc.go

| lines | function | model |
|---|---|---|
| 16-92 | `LassoCrdDesc` | `PureCohen.getSelection`, `cdCoord`, `cdSweep`, `runMax`, `cdIter`, `cdLoop`, `cdInit`, `lassoCrdDesc`, `lassoWarns`, `xTy`, `nonzeroFl`, `cdCoordFl` … |
| 95-102 | `SoftThreshold` | `softThreshold`, `softThresholdFl`, `softThresholdRnd` |
| 105-115 | `UnsatisfiedKKTConditions` | `unsatisfiedKKT`, `nonzeroFl`, `unsatisfiedKKTFl`, `unsatisfiedKKTRnd` |
| 118-131 | `MulSlice` | `mulSlice`, `mulSliceFl`, `mulSliceRnd` |
| 134-139 | `UpdateCovDotBeta` | `updateCovDotBeta`, `updateCovDotBetaFl`, `updateCovDotBetaRnd` |
| 160-177 | `PerformLassoCrd` | `selectionFl`, `lassoFeaturesFl`, `pathComp`, `crdNode`, `crdNodeFl`, `pathMem` |
| 180-256 | `LassoCrdDescPath` | `PathMain`, `pathInit`, `pathWorkers`, `pathReceive`, `pathAct`, `firstWithFeatures`, `pathResult`, `CrdPathReturns`, `CrdPathReturnsFl`, `pathStart`, `pathMem` |
| 272-276 | `NewPureLassoCohen` | `newPureLassoCohen` |
| 279-281 | `pureLassoCohen.GetX` | `PureCohen.getX` |
| 285-312 | `pureLassoCohen.GetSelection` | `CohenTargetFl.selection`, `PureCohen.getSelection`, `subRows`, `CohenTarget.getSelection`, `cohenMem` |
| 315-319 | `pureLassoCohen.HyperParameters` | `PureCohen.hyperParameters` |
| 322-324 | `pureLassoCohen.StringRep` | `PureCohen.stringRep` |
| 333-337 | `NewCLassoCohen` | `newCLassoCohen` |
| 339-341 | `cLassoCohen.GetX` | `CLassoCohen.getX` |
| 343-345 | `cLassoCohen.GetSelection` | `CLassoCohen.getSelection` |
| 347-352 | `cLassoCohen.HyperParameters` | `CLassoCohen.hyperParameters` |
| 354-356 | `cLassoCohen.StringRep` | `CLassoCohen.stringRep` |

## featselect/lassoPlot.go

| lines | function | model |
|---|---|---|
| 26-35 | `LassoLarsPathFromJSON` | `lassoLarsPathFromJSON` |
| 38-42 | `LassoLarsPathFromBytes` | `lassoLarsPathFromBytes` |
| 45-61 | `LassoLarsPath.MaxMinFeatNo` | `maxMinFeatNo` |
| 64-119 | `LassoLarsPath.PlotEntranceTimes` | `entranceStep`, `firstEntrances`, `plotEntranceTimes` |
| 122-134 | `LassoLarsPath.GetCriteria` | `getCriteria` |
| 137-159 | `LassoLarsPath.PlotQualityScores` | `plotQualityScores` |
| 162-189 | `LassoLarsPath.PlotDeviations` | `plotDeviations` |
| 192-210 | `LassoLarsPath.ExtractPath` | `pathCoeff`, `extractPath` |
| 218-260 | `LassoLarsPath.PlotPath` | `plotPath`, `plotPathFigure` |
| 264-277 | `LassoLarsPath.PickMostRelevantFeatures` | `addRelevant`, `pickLoop`, `pickMostRelevantFeatures` |

## featselect/lasso_cd.go

| lines | function | model |
|---|---|---|
| 39-61 | `MorsePenroseCD.C` | `morseEst`, `morsePenroseC` |
| 64-69 | `MorsePenroseCD.D` | `morseEst`, `morsePenroseD` |
| 72-74 | `MorsePenroseCD.SetX` | `morseEst` |
| 77-83 | `MorsePenroseCD.SetActiveSet` | `activeCols`, `morseEst` |

## featselect/lasso_lars.go

| lines | function | model |
|---|---|---|
| 21-33 | `NewLassoLarsNode` | `newLassoLarsNode` |
| 50-133 | `LassoLars` | `larsXy`, `larsInit`, `larsMove`, `larsBody`, `LarsReturns`, `larsFirstFl`, `larsFirstNode`, `larsXyFl`, `larsFirstLamb`, `LarsStart` |
| 135-150 | `maxJoinTime` | `maxTime`, `maxJoinTime` |
| 152-162 | `maxCrossTime` | `crossTime`, `maxTime` |
| 165-210 | `tJoin` | `larsXy`, `larsFit`, `larsXX`, `timeIn`, `joinTime`, `tJoin`, `joinTimeFl`, `larsFitFl`, `tJoinFl` |
| 213-224 | `tCross` | `crossTime`, `tCross` |
| 227-234 | `betaLARS` | `betaLARS` |
| 236-248 | `joinFeatSign` | `larsFit`, `joinFeatSign` |
| 251-271 | `Path2Unnormalized` | `LassoCdFl`, `unnormLoop`, `unnormalizeNode`, `path2Unnormalized` |
| 275-282 | `LassoNodesSlice2SparsCoeff` | `lassoNodesToSparse` |

## featselect/lazyPowerMat.go

| lines | function | model |
|---|---|---|
| 16-19 | `LazyPowerMatrix.numOrigCols` | `LazyMat.numCols` |
| 22-25 | `LazyPowerMatrix.NumCols` | `LazyMat.numCols` |
| 27-30 | `LazyPowerMatrix.numRows` | `LazyMat.getCol` |
| 33-49 | `LazyPowerMatrix.GetCol` | `powerEntry`, `LazyMat.getCol` |
| 52-54 | `LazyPowerMatrix.AddPower` | `LazyMat.addPower` |
| 58-68 | `NewLazyMatrix` | `newLazyMatrix` |
| 72-90 | `LazyPowerMatrix.AddPowerSequence` | `powerMap`, `LazyMat.addPowerSequence` |
| 93-99 | `LazyPowerMatrix.FullMatrix` | `LazyMat.fullMatrix` |

## featselect/model.go

| lines | function | model |
|---|---|---|
| 10-15 | `NewModel` | `newBitModel` |
| 18-22 | `Model.Get` | `BitModel.get` |
| 25-29 | `Model.Set` | `BitModel.set` |
| 32-36 | `Model.Flip` | `BitModel.flip` |
| 39-45 | `Model.ToBools` | `BitModel.toBools` |

## featselect/nestedLasso.go

| lines | function | model |
|---|---|---|
| 24-74 | `NestedLasso` | `roundCriteria`, `nestedCritBody`, `NestedCritReturns`, `mapSelectionByName`, `mapNodes`, `normalizeInPlace`, `nestedNum`, `nestedBody`, `NestedReturns` |
| 78-83 | `MapSelectionByName` | `mapSelectionByName` |

## featselect/node.go

| lines | function | model |
|---|---|---|
| 27-37 | `Node.GetChildNode` | `getChildNode` |
| 40-64 | `NodesEqual` | `nodesEqual` |
| 67-74 | `NewNode` | `newNode` |
| 89-107 | `Node.MarshalJSON` | `nodeToJson`, `selectedFrom`, `collectLoop` |
| 110-126 | `Node.UnmarshalJSON` | `nodeOfJson`, `nodeFields`, `nodeFill` |
| 129-142 | `Node.EstimateMemory` | `estimateMemory` |
| 145-159 | `Node.ToSparseCoeff` | `collectLoop`, `toSparseCoeff` |

## featselect/normalized_dataset.go

| lines | function | model |
|---|---|---|
| 23-64 | `NewNormalizedData` | `normColumnRnd`, `newNormalizedDataRnd`, `normalizedMatrixFl`, `lassoFeaturesFl`, `normalizedResponse`, `normColumn`, `newNormalizedData` |
| 69-74 | `NormalizedData.LinearNormalizationTransformation` | `linearNormalizationTransformation` |
| 77-83 | `NormalizedData.LinearTransformationBias` | `biasLoop`, `linearTransformationBias` |

## featselect/optimize.go

| lines | function | model |
|---|---|---|
| 15-22 | `Gcs` | `fillFrom`, `gcs` |
| 27-35 | `Lcs` | `fillFrom`, `lcs` |
| 38-46 | `NumFeatures` | `numFeatures` |
| 58-64 | `NewSelectModelOptParams` | `defaultMaxQueue`, `newOptParams` |
| 71-171 | `SelectModel` | `extendedSearch`, `flSearch`, `log2PrunedFl`, `log2Pruned`, `regressionSearch`, `computedSearch`, `defaultMaxQueue`, `SState`, `Action`, `loopOrExit`, `checkOverflow`, `afterInsert` … |
| 174-199 | `BruteForceSelect` | `scoreNode`, `bruteBody`, `bruteInit`, `extendedSearch`, `flSearch`, `regressionProblem`, `computedSearch` |
| 201-208 | `all` | not modelled: not called by any function |
| 210-215 | `isNewNode` | `isNewNode` |
| 218-233 | `ScoreWorker` | `fitModel`, `extendedSearch`, `flSearch`, `regressionProblem`, `rssOfModel`, `computedSearch`, `scoreWorker`, `scoreAccesses` |
| 237-256 | `CreateChild` | `extendedSearch`, `flSearch`, `regressionSearch`, `computedSearch`, `boundedChild`, `createChild`, `MainPc`, `peeks` |
| 259-274 | `CreateChildNodes` | `ChildPc`, `MainPc`, `pcOf`, `afterChild`, `peeks`, `heldParent` |
| 278-287 | `CleanQueue` | `cleanQueue` |
| 291-298 | `RemoveLeastPromising` | `extendedSearch`, `flSearch`, `regressionSearch`, `computedSearch`, `defaultMaxQueue`, `removeLeastPromising` |

## featselect/orthogonalMatchingPursuit.go

| lines | function | model |
|---|---|---|
| 20-29 | `NewOmpResult` | `omp`, `ompGap` |
| 32-94 | `Omp` | `colNorm`, `ompProj`, `ompStep`, `ompLoop`, `trimLoop`, `omp`, `ompProjGap`, `ompFitGap`, `ompStepGap`, `ompLoopGap`, `ompGap` |
| 97-102 | `Abs` | `flAbs` |
| 105-115 | `Argmax` | `argmax` |
| 118-128 | `SelectedFeatures` | `collectLoop`, `selectedFeatures` |

## featselect/saScore.go

| lines | function | model |
|---|---|---|
| 11-28 | `NewSAItem` | `selectedFrom`, `newSAItem`, `collectLoop` |
| 40-44 | `NewSAScore` | `newSAScore` |
| 47-84 | `SAScore.Insert` | `worstLoop`, `SAScore.insert` |
| 87-94 | `SAScore.Exists` | `SAScore.exists` |

## featselect/searchProgress.go

| lines | function | model |
|---|---|---|
| 13-19 | `SearchProgress.Set` | `SpEvent` |
| 22-26 | `SearchProgress.Get` | `SpEvent` |

## featselect/simmulatedAnnealing.go

| lines | function | model |
|---|---|---|
| 19-105 | `SelectModelSA` | `SaState`, `saInit`, `saFlip`, `saResult`, `saSweep`, `saEval`, `saBody`, `saStream`, `fitModelGap`, `saInitGap`, `saSweepGap`, `saEvalGap` … |

## featselect/sliceVec.go

| lines | function | model |
|---|---|---|
| 14-16 | `SliceVec.AtVec` | `sliceVec` |
| 19-21 | `SliceVec.Len` | `sliceVec` |
| 24-26 | `SliceVec.At` | `sliceVec` |
| 29-31 | `SliceVec.Dims` | `sliceVec` |
| 34-36 | `SliceVec.T` | `sliceVec` |
| 39-43 | `NewSliceVec` | `sliceVec` |

## featselect/subview.go

| lines | function | model |
|---|---|---|
| 15-17 | `IndexedColView.At` | `indexedColView` |
| 20-23 | `IndexedColView.Dims` | `indexedColView` |
| 26-28 | `IndexedColView.T` | `indexedColView` |
| 33-35 | `NewIndexedColView` | `indexedColView` |
| 44-49 | `NewIndexedColVecView` | `indexedColVecView` |
| 52-54 | `IndexedColVecView.At` | `indexedColVecView` |
| 57-59 | `IndexedColVecView.AtVec` | `indexedColVecView` |
| 62-64 | `IndexedColVecView.Dims` | `indexedColVecView` |
| 67-69 | `IndexedColVecView.T` | `indexedColVecView` |
| 72-74 | `IndexedColVecView.Len` | `indexedColVecView` |

## featselect/thresholdCov.go

| lines | function | model |
|---|---|---|
| 20-31 | `ThresholdOperator.Apply` | `thresholdEntry`, `thresholdApply`, `pathMem` |
| 53-124 | `L2ConsistentCovTO` | `covMem`, `CovMain`, `covInit`, `covSim`, `covReceive`, `covAct`, `CovDone`, `covRows`, `covGrid`, `CovSearch` |
| 126-128 | `getThreshold` | `getThreshold` |
| 132-157 | `RandomRowSplit` | `randomRowSplit`, `swapAt`, `goShuffle`, `splitIndices` |
| 161-178 | `CalculateFNormDiff` | `fNormDiffSq`, `covMem`, `covComp`, `fNormDiff` |
| 181-201 | `CovarianceMatrix` | `covarianceMatrix` |
| 204-208 | `PerformNormDiffWork` | `covComp` |

## featselect/util.go

| lines | function | model |
|---|---|---|
| 12-31 | `GetDesignMatrix` | `selectedFrom`, `getDesignMatrix` |
| 34-41 | `All` | `allEq` |
| 44-59 | `IterProduct` | `iterRow`, `iterRound`, `iterProductState` |
| 62-68 | `Sum` | `sumInt` |
| 73-76 | `NewLog2Pruned` | `newLog2PrunedFl`, `newLog2Pruned` |
| 82-109 | `RearrangeDense` | `setCol`, `rearrangeLoop1`, `rearrangeLoop2`, `rearrangeDense` |
| 113-120 | `Selected2Model` | `selected2Model` |
| 123-129 | `Mean` | `meanRnd`, `meanFl`, `goMean` |
| 132-144 | `Std` | `stdRnd`, `stdFl`, `goStd` |
| 147-154 | `NormalizeArray` | `normalizeArrayRnd`, `normalizeArray` |
| 157-162 | `NormalizeRows` | `normalizeRows` |
| 165-178 | `NormalizeCols` | `normalizeCols` |
| 181-188 | `ExistInt` | `existInt` |
| 191-200 | `MaxInt` | `maxInt` |
| 203-212 | `MinInt` | `minInt` |
| 215-224 | `MinFloat` | `minFloat`, `minFloatFl` |
| 227-238 | `EqualInt` | `equalInt` |
| 242-248 | `FullCoeffVector` | `fullCoeffLoop`, `fullCoeffVector` |
| 259-272 | `WeightedAveragedCoeff` | `addSparse`, `weightedAveragedCoeff` |
| 275-292 | `WeightsFromAIC` | `weightsFromAIC`, `weightsFromAICFl` |
| 303-303 | `ByValue.Len` | `SortsByValue` |
| 304-304 | `ByValue.Swap` | `SortsByValue` |
| 305-305 | `ByValue.Less` | `SortsByValue` |
| 308-323 | `Argsort` | `argsort` |
| 326-337 | `Argmin` | `argmin` |
| 340-354 | `PrintHighscore` | `printHighscore` |
| 358-375 | `PseudoInverseXTX` | `pseudoInverseXTX` |
| 378-399 | `PseudoInverse` | `pseudoInverse` |
| 402-421 | `Logspace` | `logspaceFl`, `logspace` |
| 425-432 | `UnionInt` | `unionNat`, `unionInt` |
| 435-468 | `CohenKappa` | `Counts`, `kappaCounts`, `prA`, `prE`, `cohenKappa`, `cohenKappaFl` |

## cmdDepreciated/goselect-cohenlasso/main.go

| lines | function | model |
|---|---|---|
| 9-28 | `cohensKappaPureLasso` | `cohenTargets`, `CohenRun`, `CohenTargetFl`, `cohenTargetsFl`, `CohenRunFl`, `commandData` |
| 30-41 | `main` | `CohenFlags`, `CohenFlagsFl` |

## cmdDepreciated/goselect-mem/main.go

| lines | function | model |
|---|---|---|
| 10-26 | `main` | `CohenTargetFl`, `allFeatures`, `bufferSize` |

## cmdDepreciated/goselect-nestedlasso/main.go

| lines | function | model |
|---|---|---|
| 12-25 | `nestedLasso` | `CohenTargetFl`, `commandData`, `NestedCommand` |
| 27-36 | `main` | `nestedDefaults` |

## cmdDepreciated/goselect-plotlasso/main.go

| lines | function | model |
|---|---|---|
| 12-35 | `analyseLasso` | `CohenTargetFl`, `analyseLasso` |
| 37-58 | `main` | `axisRange`, `plotLassoMain` |

