import Verif.Model.Config

/-!
Model of the options of an index server over its life: the start, and the files that are read later.

Simplifications: as in Model/Config.  The options that only the start reads (ports, partitions, directories) are those of
Model/Show, Model/IndexStart and Model/Uri, and a start that fails because of them is not modelled here. -/
namespace Flare

/-- The command line goes before the file, /repo/src/flarei/ini_option.cc:97-99 and :130-134. -/
def IndexGiven.over (cli file : IndexGiven) : IndexGiven where
  logFacility := cli.logFacility <|> file.logFacility
  maxConnection := cli.maxConnection <|> file.maxConnection
  monitorThreshold := cli.monitorThreshold <|> file.monitorThreshold
  monitorInterval := cli.monitorInterval <|> file.monitorInterval
  monitorReadTimeout := cli.monitorReadTimeout <|> file.monitorReadTimeout
  netReadTimeout := cli.netReadTimeout <|> file.netReadTimeout
  threadPoolSize := cli.threadPoolSize <|> file.threadPoolSize

/-- The values of an index server for which nothing is given, /repo/src/flarei/ini_option.h:72-83 and
/repo/src/flarei/ini_option.cc:48-61. -/
def indexDefaults : IndexIni where
  logFacility := []
  maxConnection := 128
  monitorThreshold := 3
  monitorInterval := 5
  monitorReadTimeout := 1 * 1000
  netReadTimeout := 10 * 60 * 1000
  threadPoolSize := 5

/-- `ini_option::load`, /repo/src/flarei/ini_option.cc:160-182 and :238-240. -/
def loadIndex (g : IndexGiven) : IndexIni where
  logFacility := g.logFacility.getD indexDefaults.logFacility
  maxConnection := (g.maxConnection.map toUInt32).getD indexDefaults.maxConnection
  monitorThreshold := g.monitorThreshold.getD indexDefaults.monitorThreshold
  monitorInterval := g.monitorInterval.getD indexDefaults.monitorInterval
  monitorReadTimeout := g.monitorReadTimeout.getD indexDefaults.monitorReadTimeout
  netReadTimeout := g.netReadTimeout.getD indexDefaults.netReadTimeout
  threadPoolSize := g.threadPoolSize.getD indexDefaults.threadPoolSize

/-- `flarei::startup`, /repo/src/flarei/flarei.cc:237-255. -/
def startIndexRun (cli file : IndexGiven) : IndexRun :=
  let i := loadIndex (cli.over file)
  ⟨i,
    { monitorThreshold := i.monitorThreshold
      monitorInterval := i.monitorInterval
      monitorReadTimeout := i.monitorReadTimeout
      readTimeout := millis i.netReadTimeout
      reqPool := i.threadPoolSize
      otherPool := i.threadPoolSize }⟩

/-- One signal after the other. -/
def reloadIndexAll : List (Option IndexGiven) → IndexRun → IndexRun
  | [], n => n
  | f :: fs, n => reloadIndexAll fs (reloadIndex f n).2

end Flare
