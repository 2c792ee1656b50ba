import Verif.Spec.Help
/- The help of the runner of tests, as in /repo/TestMaterials/TestFramework/TestRunnerEndToEndFreeTest/Prediction/Output/HelpOutput.txt. -/
namespace Verif.Spec.Help

/-- The lines of the help. -/
def runnerHelp : List String :=
  ["test | t | test suite name",
   "select | s | source file name",
   "prune | p |",
   "  --cutoff | -c | Cutoff for #include search e.g. 'namespace'",
   "create | c |",
   "  regular_test | regular | qualified::class_name<class T>, equivalent type",
   "    --suite | -s | suite name",
   "    --header | -h | header of class to test",
   "    gen-source | g | source dir",
   "  move_only_test | move_only | qualified::class_name<class T>, equivalent type",
   "    --suite | -s | suite name",
   "    --header | -h | header of class to test",
   "    gen-source | g | source dir",
   "  regular_allocation_test | regular_allocation allocation_test | raw class name",
   "    --suite | -s | suite name",
   "    --header | -h | header of class to test",
   "  move_only_allocation_test | move_only_allocation | raw class name",
   "    --suite | -s | suite name",
   "    --header | -h | header of class to test",
   "  free_test | free | header",
   "    --suite | -s | suite name",
   "    --test-class-forename | --forename | test class is named <forename>_...",
   "    gen-source | g | namespace",
   "    --framework-diagnostics | --diagnostics |",
   "  performance_test | performance | header",
   "    --suite | -s | suite name",
   "init | i | copyright owner, path ending with project name, code indent",
   "  --no-build",
   "  --no-git",
   "  --to-files output filename",
   "  --no-ide",
   "update-materials | u |",
   "locate-instabilities | locate | number of repetitions >= 2",
   "  --sandbox",
   "  --runner-id private option, best avoided",
   "recover",
   "dump",
   "--serial",
   "--thread-pool Number of threads, must be >= 1",
   "--verbose | -v |"]

end Verif.Spec.Help
