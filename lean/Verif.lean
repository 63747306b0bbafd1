import Verif.Props.Store
import Verif.Props.Compression
import Verif.Props.PostingList
import Verif.Props.Merger
import Verif.Props.TopK
import Verif.Props.Index
import Verif.Props.Metric
import Verif.Props.Suggest
import Verif.Props.Autocomplete
import Verif.Props.Analysis
import Verif.Props.Service
import Verif.Props.CountTrie
import Verif.Props.LM
import Verif.Props.MPH
import Verif.Props.LMStore
import Verif.Props.Scanner
import Verif.Props.NGramFiles
import Verif.Props.LMPipeline
import Verif.Props.MPHTermination
import Verif.Props.Spellchecker
import Verif.Props.SpellcheckerExamples
import Verif.Props.Http
import Verif.Props.SuggestFloat
import Verif.Model.Builder
import Verif.Spec.WordSearch
import Verif.Proofs.Builder
import Verif.Props.WordSearch
import Verif.Props.OddQuery
import Verif.Props.Reindex
import Verif.Model.App
import Verif.Props.App
import Verif.Spec.Corrections
import Verif.Model.SpellBuild
import Verif.Proofs.Corrections
import Verif.Props.Corrections
import Verif.Props.CorrectionsExamples
import Verif.Model.Lifecycle
import Verif.Props.Lifecycle
import Verif.Model.IndexerJob
import Verif.Proofs.ScannerAny
import Verif.Props.Indexer
import Verif.Props.FileSearch
import Verif.Model.Mapped
import Verif.Props.Mapped
import Verif.Model.NGramCount
import Verif.Spec.Corpus
import Verif.Proofs.Corpus
import Verif.Props.Corpus
import Verif.Model.Snowball
import Verif.Model.StemmerFilter
import Verif.Model.StopWords
import Verif.Model.RussianStemmer
import Verif.Model.EnglishStemmer
import Verif.Model.StemmerFilters
import Verif.Spec.Stemming
import Verif.Spec.EnglishStemming
import Verif.Proofs.Snowball
import Verif.Proofs.RussianStemmer
import Verif.Proofs.EnglishStemmer
import Verif.Proofs.StemmerFilter
import Verif.Props.Stemmer
import Verif.Model.Notify
import Verif.Props.Notify
import Verif.Model.Pool
import Verif.Proofs.Pool
import Verif.Proofs.PoolSearch
import Verif.Props.Pool
import Verif.Model.WriteErrors
import Verif.Spec.WriteErrors
import Verif.Proofs.WriteErrors
import Verif.Props.WriteErrors
import Verif.Spec.Damage
import Verif.Proofs.Damage
import Verif.Proofs.DamageMerge
import Verif.Proofs.DamageSuggest
import Verif.Proofs.DamageAutocomplete
import Verif.Proofs.DamageFiles
import Verif.Proofs.DamageLM
import Verif.Proofs.FloatMaxY
import Verif.Props.Damage
import Verif.Model.VGram
import Verif.Spec.VGram
import Verif.Proofs.VGram
import Verif.Proofs.VGramText
import Verif.Props.VGram
import Verif.Model.Wire
import Verif.Spec.Wire
import Verif.Proofs.Wire
import Verif.Proofs.WireJson
import Verif.Props.Wire
import Verif.Model.Paths
import Verif.Spec.Paths
import Verif.Proofs.Paths
import Verif.Props.Paths
import Verif.Props.WirePredict
import Verif.Model.LMMemory
import Verif.Spec.LMMemory
import Verif.Proofs.LMMemory
import Verif.Props.LMMemory
import Verif.Model.CDBRead
import Verif.Spec.CDBRead
import Verif.Proofs.CDBRead
import Verif.Props.CDBRead
import Verif.Model.Eval
import Verif.Spec.Eval
import Verif.Proofs.Eval
import Verif.Props.Eval
import Verif.Props.EvalExamples
import Verif.Model.Serve
import Verif.Proofs.Serve
import Verif.Proofs.ServeText
import Verif.Proofs.ServeLong
import Verif.Props.Serve
import Verif.Props.ServeExamples
import Verif.Props.ServeFate
import Verif.Props.ExactSearch
import Verif.Props.PredictFate
import Verif.Props.PredictShort
import Verif.Props.CompleteFate
import Verif.Props.ShortPrefix
import Verif.Props.CompleteAny
import Verif.Props.ShortQueryNaN
import Verif.Model.Config
import Verif.Spec.Config
import Verif.Proofs.Config
import Verif.Proofs.ConfigNumber
import Verif.Proofs.ConfigJson
import Verif.Proofs.ConfigExtend
import Verif.Proofs.ConfigFields
import Verif.Proofs.ConfigAccept
import Verif.Props.Config
import Verif.Props.ConfigExamples
import Verif.Model.Deploy
import Verif.Spec.Deploy
import Verif.Props.Deploy
import Verif.Props.DeployExamples
import Verif.Spec.Routes
import Verif.Props.Routes
import Verif.Model.LMDeploy
import Verif.Spec.LMDeploy
import Verif.Proofs.LMDeploy
import Verif.Props.LMDeploy
import Verif.Props.LMDeployExamples
import Verif.Model.Memory
import Verif.Props.Memory
import Verif.Props.MemoryExamples
import Verif.Props.NotANumber
import Verif.Props.NotANumberExamples
